import Verif.Lemmas.Diag
import Verif.Lemmas.EndToEnd
import Verif.Props.LveFile
import Verif.Props.Tool

/-!
# C76, C77: what error messages say
-/

namespace Semla.Props

open Semla Semla.Spec

/-! ## C76 -/

theorem error1 {w : World} (hw : Ample w) {t : Bytes} (ht : t.length < 2 ^ 63) (h0 : cstr t = t) :
    ∃ r, reply false (sendError w.malloc 1 (some t)) = .ok [r] ∧ ErrorReply 1 t r := by
  have := reply_error_ok hw (code := 1) (by decide) (by decide) (t := t) (by rw [h0]; exact ht)
  rcases reply_error (code := 1) this with ⟨r, hr, he⟩ | ⟨h, -⟩
  · exact ⟨r, by rw [hr] at this; exact this, by rwa [h0] at he⟩
  · simp at h

/-- **C76, malformed messages.**  Full statement: whatever malformed message comes in whatever session, the reply is
`ERROR 1` with a text that names the fault, the command and the offending argument.  This is false if an argument is
white space (`c76_blank_not`); it is shown here for all other messages.  (Text after 4095 bytes is cut off.) -/
theorem c76_malformed_partial {conf : LveConf} {w : World} (hw : Ample w) (st : LveSt) {msg : Bytes} {g : Grammar}
    (hr : Rejected msg g) (hb : ¬ BlankArgument msg) :
    ∃ st' r text, lveStep conf w st msg = .ok (st', [r]) ∧ SameSession st st' ∧ Complaint msg text ∧
      ErrorReply 1 (text.take 4095) r := by
  rcases parse_text hr (cap := lveErrorSize) (by decide) st.errMsg with ⟨h, -⟩ | ⟨-, text, h1, h2⟩
  · exact absurd h hb
  · have hl : (text.take 4095).length < 2 ^ 63 := by
      have := List.length_take_le 4095 text
      omega
    obtain ⟨r, h3, h4⟩ := error1 hw hl (cstr_complaint h1 4095)
    refine ⟨{ st with errMsg := text.take 4095 }, r, text, ?_, rfl, h1, h4⟩
    unfold lveStep
    rw [if_neg (by simp [hw _]), h2]
    have hu : g ≠ .unknownError := by cases hr <;> simp
    simp only [Res.bind_ok, if_neg (rejected_ne_valid hr), if_neg hu]
    change (do let out ← reply false (sendError w.malloc 1 _); Res.ok (_, out)) = _
    rw [show lveErrorSize - 1 = 4095 from rfl, h3]; rfl

theorem command_shape {c c' : CmdId} {name : Bytes} {sh sh' : Shape} (h : (c, name, sh) ∈ commands)
    (h' : (c', name, sh') ∈ commands) : sh = sh' := by
  have h1 := (findCommand_of_mem h)
  have h2 := (findCommand_of_mem h')
  have hc : c = c' := by
    have := h1.1.symm.trans h2.1
    simpa using this
  subst hc
  have := h1.2.2.2.symm.trans h2.2.2.2
  cases sh <;> cases sh' <;> first | rfl | simp [shapeForm] at this

theorem first_bad : ∀ {good good' more more' : List Bytes} {w w' : Bytes}, good ++ w :: more = good' ++ w' :: more' →
    (∀ v ∈ good, ∃ n, Denotes v n) → (∀ v ∈ good', ∃ n, Denotes v n) → (¬ ∃ n, Denotes w n) →
    (¬ ∃ n, Denotes w' n) → w = w' := by
  intro good
  induction good with
  | nil =>
    intro good' more more' w w' h _ h2 h3 _
    cases good' with
    | nil => simp at h; exact h.1
    | cons v good' =>
      simp at h
      exact absurd (h2 w (by simp [h.1])) h3
  | cons v good ih =>
    intro good' more more' w w' h h1 h2 h3 h4
    cases good' with
    | nil =>
      simp at h
      exact absurd (h1 w' (by simp [h.1])) h4
    | cons v' good' =>
      simp at h
      exact ih h.2 (fun v hv => h1 v (by simp [hv])) (fun v hv => h2 v (by simp [hv])) h3 h4

/-- **C76, the text says one thing.**  What there is to say about a message is determined by the message. -/
theorem c76_one_complaint {msg t1 t2 : Bytes} (h1 : Complaint msg t1) (h2 : Complaint msg t2) : t1 = t2 := by
  have key : ∀ {name ws name' ws'}, header msg = name :: ws → header msg = name' :: ws' → name = name' ∧ ws = ws' := by
    intro name ws name' ws' h h'
    have := h.symm.trans h'
    simpa using this
  cases h1 with
  | empty e1 =>
    cases h2 with
    | empty => rfl
    | unknown e2 => rw [e1] at e2; simp at e2
    | few _ e2 => rw [e1] at e2; simp at e2
    | many _ e2 => rw [e1] at e2; simp at e2
    | notInt _ e2 => rw [e1] at e2; simp at e2
    | negative _ _ e2 => rw [e1] at e2; simp at e2
  | unknown e1 u1 =>
    cases h2 with
    | empty e2 => rw [e1] at e2; simp at e2
    | unknown e2 => rw [(key e1 e2).1]
    | few m e2 => exact absurd (key e1 e2).1.symm (u1 _ m)
    | many m e2 => exact absurd (key e1 e2).1.symm (u1 _ m)
    | notInt m e2 => exact absurd (key e1 e2).1.symm (u1 _ m)
    | negative m _ e2 => exact absurd (key e1 e2).1.symm (u1 _ m)
  | few m1 e1 l1 =>
    cases h2 with
    | empty e2 => rw [e1] at e2; simp at e2
    | unknown e2 u2 => exact absurd (key e1 e2).1 (u2 _ m1)
    | few m e2 => obtain ⟨rfl, rfl⟩ := key e1 e2; cases command_shape m1 m; rfl
    | many m e2 l2 => obtain ⟨rfl, rfl⟩ := key e1 e2; cases command_shape m1 m; omega
    | notInt m e2 l2 => obtain ⟨rfl, rfl⟩ := key e1 e2; cases command_shape m1 m; omega
    | negative m _ e2 l2 => obtain ⟨rfl, rfl⟩ := key e1 e2; cases command_shape m1 m; omega
  | many m1 e1 l1 =>
    cases h2 with
    | empty e2 => rw [e1] at e2; simp at e2
    | unknown e2 u2 => exact absurd (key e1 e2).1 (u2 _ m1)
    | few m e2 l2 => obtain ⟨rfl, rfl⟩ := key e1 e2; cases command_shape m1 m; omega
    | many m e2 => obtain ⟨rfl, rfl⟩ := key e1 e2; cases command_shape m1 m; rfl
    | notInt m e2 l2 => obtain ⟨rfl, rfl⟩ := key e1 e2; cases command_shape m1 m; omega
    | negative m _ e2 l2 => obtain ⟨rfl, rfl⟩ := key e1 e2; cases command_shape m1 m; omega
  | notInt m1 e1 l1 g1 b1 =>
    cases h2 with
    | empty e2 => rw [e1] at e2; simp at e2
    | unknown e2 u2 => exact absurd (key e1 e2).1 (u2 _ m1)
    | few m e2 l2 => obtain ⟨rfl, rfl⟩ := key e1 e2; cases command_shape m1 m; omega
    | many m e2 l2 => obtain ⟨rfl, rfl⟩ := key e1 e2; cases command_shape m1 m; omega
    | notInt m e2 l2 g2 b2 =>
      obtain ⟨rfl, h⟩ := key e1 e2
      rw [first_bad h g1 g2 b1 b2]
    | negative m _ e2 l2 d2 =>
      obtain ⟨rfl, rfl⟩ := key e1 e2
      exact absurd (d2 _ (by simp)) b1
  | negative m1 k1 e1 l1 d1 w1 v1 n1 ds1 =>
    cases h2 with
    | empty e2 => rw [e1] at e2; simp at e2
    | unknown e2 u2 => exact absurd (key e1 e2).1 (u2 _ m1)
    | few m e2 l2 => obtain ⟨rfl, rfl⟩ := key e1 e2; cases command_shape m1 m; omega
    | many m e2 l2 => obtain ⟨rfl, rfl⟩ := key e1 e2; cases command_shape m1 m; omega
    | notInt m e2 l2 g2 b2 =>
      obtain ⟨rfl, rfl⟩ := key e1 e2
      exact absurd (d1 _ (by simp)) b2
    | negative m k2 e2 l2 d2 w2 v2 n2 ds2 =>
      obtain ⟨rfl, rfl⟩ := key e1 e2
      rw [w1] at w2
      simp only [Option.some.injEq] at w2
      subst w2
      have := ((scanLong_eq_val_iff _ _).2 v1).symm.trans ((scanLong_eq_val_iff _ _).2 v2)
      simp only [Scan.val.injEq] at this
      subst this
      rw [numeral_unique ds1 ds2]

example : Complaint b!"FILE x\n" b!"Parse error. Argument x to command FILE is not an integer." :=
  .notInt (c := .file) (name := b!"FILE") (sh := .len) (good := []) (w := b!"x") (more := []) (by decide) (by decide)
    (by decide) (by simp) (fun ⟨n, h⟩ => by have := (scanLong_eq_val_iff _ _).2 h; rw [show scanLong b!"x" = .noMatch by decide] at this; cases this)
    (fun h => by have := h 120 (by simp); revert this; decide)
example : ¬ BlankArgument b!"FILE x\n" := by
  rintro ⟨c, name, sh, good, w, more, -, hh, -, hg, hb⟩
  rw [show header b!"FILE x\n" = [b!"FILE", b!"x"] by decide] at hh
  simp only [List.cons.injEq] at hh
  have hm : w ∈ [b!"x"] := by rw [hh.2]; simp
  simp only [List.mem_singleton] at hm
  subst hm
  have := hb 120 (by simp)
  revert this; decide
-- one of each kind
example : repliesOf (session (toyConf [b!"k"] none generous) (some b!"k") (inWorld lib1
    [b!" \n", b!"HELLO\n", b!"FILE\n", b!"TOOLS 1 2\n", b!"FILE x\n", b!"LIB -12\n", b!"FILECONT 1\nx",
     b!"LIB 2\n/l"])) =
    some [[b!"ERROR 1 21\nNo tokens in message."],
      [b!"ERROR 1 22\nUnknown command HELLO."],
      [b!"ERROR 1 66\nToo few arguments for command FILE. Expected form is FILE <length>"],
      [b!"ERROR 1 60\nToo many arguments for command TOOLS. Expected form is TOOLS"],
      [b!"ERROR 1 58\nParse error. Argument x to command FILE is not an integer."],
      [b!"ERROR 1 60\nParse error. Length argument -12 to command LIB is negative."],
      [b!"ERROR 1 80\nProtocol error: Command FILECONT can't be sent to the library vendor executable."],
      [b!"ERROR 1 81\nProtocol error: Command LIB is not valid in this state, expected command VERSION."]] := by decide +kernel

/-- **C76, commands at the wrong time.**  In every session and for every well-formed command that is not valid then,
the reply is `ERROR 1` saying that this command is never valid, or not now, and which commands are. -/
theorem c76_out_of_turn {conf : LveConf} {w : World} (hw : Ample w) (st : LveSt) {msg : Bytes} {c : CmdId} {n : Int}
    {len : Nat} (ha : Accepts msg c n len) (hn : ¬ Allowed st.proto c) :
    ∃ st' r text, lveStep conf w st msg = .ok (st', [r]) ∧ SameSession st st' ∧ OutOfTurn st.proto c text ∧
      ErrorReply 1 text r := by
  obtain ⟨text, h1, h2, h3, h4⟩ := nextState_text st.errMsg (accepts_defined ha) hn
  obtain ⟨r, h5, h6⟩ := error1 hw (t := text) (by omega) (cstr_of_no_nul h3)
  refine ⟨{ st with errMsg := text }, r, text, ?_, rfl, h1, h6⟩
  unfold lveStep
  rw [if_neg (by simp [hw _]), parse_of_accepts ha]
  simp only [Res.bind_ok, if_true]
  change handleCommand conf w st ⟨c, n, len, none⟩ msg = _
  unfold handleCommand
  rw [show lveErrorSize = 4096 from rfl]
  simp only [h2, Res.bind_ok]
  change (do let out ← reply false (sendError w.malloc 1 _); Res.ok (_, out)) = _
  rw [h5]; rfl

/-- The command at the wrong time of the session above. -/
example : Accepts b!"LIB 2\n/l" .lib 0 2 ∧ ¬ Allowed .version .lib ∧
    OutOfTurn .version .lib b!"Protocol error: Command LIB is not valid in this state, expected command VERSION." := by
  have ha : ¬ Allowed .version .lib := by rw [allowed_iff]; decide
  exact ⟨.len (name := b!"LIB") (w := b!"2") (n := 2) (by decide) (by decide)
    ((scanLong_eq_val_iff _ _).1 (by decide)) (by decide), ha, .now (name := b!"LIB") (sh := .len) (by decide) (by decide) ha⟩

/-- **C76 is false for an argument of white space**: the text is that of the last error before, here about another
message, or empty if there was none. -/
theorem c76_blank_not : Rejected b!"VERSION \t\n" .notAnInt ∧ BlankArgument b!"VERSION \t\n" ∧
    (∀ t, Complaint b!"VERSION \t\n" t → t ≠ b!"Unknown command HELLO." ∧ t ≠ []) ∧
    repliesOf (session (toyConf [b!"k"] none generous) (some b!"k") (inWorld lib1 [b!"VERSION \t\n", b!"HELLO\n",
      b!"VERSION \t\n"])) =
    some [[b!"ERROR 1 0\n"], [b!"ERROR 1 22\nUnknown command HELLO."], [b!"ERROR 1 22\nUnknown command HELLO."]] := by
  have hb : Blank b!"\t" := by unfold Blank; decide
  have hh : header b!"VERSION \t\n" = b!"VERSION" :: [b!"\t"] := by decide
  have hm : (CmdId.version, b!"VERSION", Shape.num) ∈ commands := by decide
  refine ⟨.notInt hm hh (by decide) ⟨_, by simp, blank_not_denotes hb⟩,
    ⟨_, _, _, [], _, [], hm, hh, by decide, by simp, hb⟩, ?_, by decide +kernel⟩
  intro t ht
  refine ⟨fun e => ?_, fun e => ?_⟩
  · cases ht with
    | empty h => rw [hh] at h; simp at h
    | unknown h u =>
      rw [hh] at h
      simp only [List.cons.injEq] at h
      exact u _ hm h.1
    | few => simp at e
    | many => simp at e
    | notInt => simp at e
    | negative => simp at e
  · cases ht <;> simp at e

/-! ### Refusing files -/

/-- The text kept for a tool that gets no files stays the same for the rest of the session. -/
theorem refusal_kept {conf : LveConf} {st st' : LveSt} {turns : List (World × Bytes)} {outs : List (List Bytes)}
    (hp : st.proto = .license) (ha : st.approved = false) (h : lveRun conf st turns = .ok (st', outs)) :
    st'.toolErrMsg = st.toolErrMsg ∧ st'.toolErrType = st.toolErrType ∧ st'.approved = false ∧ st'.proto = .license := by
  refine run_inv (conf := conf)
    (P := fun s => s.toolErrMsg = st.toolErrMsg ∧ s.toolErrType = st.toolErrType ∧ s.approved = false ∧
      s.proto = .license) ?_ ⟨rfl, rfl, ha, hp⟩ h
  rintro w s msg s' out ⟨h1, h2, h3, h4⟩ he
  cases he with
  | refused => exact ⟨h1, h2, h3, h4⟩
  | low => exact ⟨h1, h2, h3, h4⟩
  | version hp => rw [h4] at hp; cases hp
  | tools hp => rw [h4] at hp; cases hp
  | lib hp => rw [h4] at hp; rcases hp with hp | hp <;> cases hp
  | feature _ _ _ h => obtain ⟨b, cs, rfl⟩ := feature_frame h; exact ⟨h1, h2, h3, rfl⟩
  | returnFeature _ _ _ h => obtain ⟨b, cs, rfl⟩ := returnFeature_frame h; exact ⟨h1, h2, h3, rfl⟩
  | license => exact ⟨h1, h2, h3, rfl⟩
  | file _ _ _ h => obtain ⟨t, rfl⟩ := file_frame h; exact ⟨h1, h2, h3, rfl⟩

theorem refusal_text {conf : LveConf} {st : LveSt} (hp : st.proto = .license) (ha : st.approved = false) {code : Nat}
    {text : Bytes} (hc : st.toolErrType = code) (hl : (code : Int) ≤ longMax) (hm : st.toolErrMsg = some text)
    (ht : text.length < 2 ^ 63) {w : World} (hw : Ample w) {msg p : Bytes} (hf : Carries msg .file p) :
    ∃ r, lveStep conf w st msg = .ok (st, [r]) ∧ ErrorReply code (cstr text) r := by
  have hcl : (cstr text).length < 2 ^ 63 := Nat.lt_of_le_of_lt (cstr_length_le text) ht
  have h1 := reply_error_ok hw (code := (code : Int)) (by unfold longMin; omega) hl hcl
  rw [file_step hw hp hf, file_unapproved ha hm, hc, h1]
  rcases reply_error h1 with ⟨r, h2, h3⟩ | ⟨h2, -⟩
  · exact ⟨r, by rw [h2]; simp [stay hp], h3⟩
  · simp at h2

/-- Before LIB, nothing is known about a refused tool but that it is one. -/
theorem untrusted_session {conf : LveConf} {k : Option Bytes} {turns : List (World × Bytes)} {st : LveSt}
    {replies : List (List Bytes)} (hk : ∀ key ∈ k, ∀ t ∈ conf.trusted, cstr t ≠ cstr key)
    (h : Session conf k turns st replies) (hp : st.proto ≠ .license) :
    st.approved = false ∧ st.toolErrMsg = some b!"Not a valid tool" ∧ st.toolErrType = 5 := by
  obtain ⟨st0, h1, h2⟩ := h
  have h0 : st0 = { LveSt.initial with approved := false, toolErrMsg := some b!"Not a valid tool", toolErrType := 5 } := by
    have hv : ∀ b, validate conf.trusted k = .ok b → b = false := by
      intro b
      generalize conf.trusted = ts at hk
      induction ts with
      | nil => intro h3; simp only [validate, Res.ok.injEq] at h3; exact h3.symm
      | cons t ts ih =>
        intro h3
        cases k with
        | none => simp [validate] at h3
        | some key =>
          have := hk key (by simp) t (by simp)
          unfold validate at h3
          simp only [if_neg (Ne.symm this)] at h3
          exact ih (fun key' hk' t' ht' => hk key' hk' t' (by simp [ht'])) h3
    unfold lveStart validatePubkey at h1
    rw [Res.bind_eq_ok] at h1
    obtain ⟨b, h3, h1⟩ := h1
    cases hv b h3
    simp only [Bool.false_eq_true, if_false, Res.ok.injEq] at h1
    exact h1.symm
  refine run_inv (conf := conf) (P := fun s => s.proto ≠ .license → s.approved = false ∧
    s.toolErrMsg = some b!"Not a valid tool" ∧ s.toolErrType = 5) ?_ (by rw [h0]; intro _; exact ⟨rfl, rfl, rfl⟩) h2 hp
  intro w s msg s' out hi he hn
  cases he with
  | refused => exact hi hn
  | low => exact hi hn
  | version hp => exact hi (by rw [hp]; simp)
  | tools hp => exact hi (by rw [hp]; simp)
  | lib => exact absurd rfl hn
  | feature => exact absurd rfl hn
  | returnFeature => exact absurd rfl hn
  | license => exact absurd rfl hn
  | file => exact absurd rfl hn

theorem lib_forward {conf : LveConf} {w : World} (hw : Ample w) {d root msg : Bytes} (hd : IsRootOf d root)
    (hc : Carries msg .lib d) {st : LveSt} (hal : Allowed st.proto .lib) :
    lveStep conf w st msg = (do
      let (s, out, _) ← (match globalLicense conf (withRoot st root) with
        | (_, .failure none) => Res.ub .nullDeref
        | (s, .failure (some m)) => do
          let s := { s with toolErrMsg := some (cstr m), toolErrType := 7, approved := false }
          let out ← reply false (sendError w.malloc 7 (some (cstr m)))
          .ok (s, out, false)
        | (s, .success) => .ok ((validateDirectory w s).1, [sendSimple .yes], (validateDirectory w s).2))
      .ok ({ s with proto := .license }, out)) := by
  have hne : d ≠ [] := by
    obtain ⟨seps, rfl, -, h, -⟩ := hd
    simp [h]
  have htrim : trimLoop d d.length = root := isRootOf_unique (trimLoop_isRootOf hne) hd
  have hlen : d.length ≠ 0 := by simpa using hne
  have hlib : lveLibpath conf w false st ⟨.lib, 0, d.length, some ⟨d.map some ++ [some 0]⟩⟩ =
      (match globalLicense conf (withRoot st root) with
        | (_, .failure none) => Res.ub .nullDeref
        | (s, .failure (some m)) => do
          let s := { s with toolErrMsg := some (cstr m), toolErrType := 7, approved := false }
          let out ← reply false (sendError w.malloc 7 (some (cstr m)))
          .ok (s, out, false)
        | (s, .success) => .ok ((validateDirectory w s).1, [sendSimple .yes], (validateDirectory w s).2)) := by
    unfold lveLibpath
    simp only [hw _, not_true_eq_false, if_false, readCells_map_some, Res.bind_ok, hlen, htrim, if_true]
    rfl
  have hp : st.proto = .tools ∨ st.proto = .lib := by
    rw [allowed_iff] at hal
    cases h : st.proto <;> simp [h, validNext] at hal ⊢
  rw [step_forward (next := .license) hw rfl hc (by rcases hp with hp | hp <;> rw [hp] <;> rfl)]
  unfold dispatch
  rcases hp with hp | hp <;> rw [hp] <;> simp only [hlib, reduceCtorEq, if_false]

/-- **C76, refused tools.**  In every session of a tool whose key is not trusted, every FILE after LIB is answered by
the error that says what was wrong at LIB: the path does not exist, it is not a directory, or, if it is, that the tool
is not a valid one. -/
theorem c76_untrusted {conf : LveConf} {k : Option Bytes} {turns : List (World × Bytes)} {st : LveSt}
    {replies : List (List Bytes)} (hses : Session conf k turns st replies)
    (hk : ∀ key ∈ k, ∀ t ∈ conf.trusted, cstr t ≠ cstr key) {w1 : World} (hw1 : Ample w1) {lmsg d root : Bytes}
    (hal : Allowed st.proto .lib) (hl : Carries lmsg .lib d) (hd : IsRootOf d root) (hnul : (0 : UInt8) ∉ d)
    {st1 st2 : LveSt} {out1 : List Bytes} (h1 : lveStep conf w1 st lmsg = .ok (st1, out1))
    {turns2 : List (World × Bytes)} {replies2 : List (List Bytes)} (h2 : lveRun conf st1 turns2 = .ok (st2, replies2))
    {w : World} (hw : Ample w) {msg p : Bytes} (hf : Carries msg .file p) :
    out1 = [b!"YES\n"] ∧ ∃ code text r, lveStep conf w st2 msg = .ok (st2, [r]) ∧ NoFiles w1 root code text ∧
      ErrorReply code text r := by
  have hpl : st.proto ≠ .license := by
    intro h
    rw [h, allowed_iff] at hal
    simp [validNext] at hal
  have hcr : cstr root = root := by
    refine cstr_of_noNul fun b hb h0 => hnul ?_
    obtain ⟨seps, rfl, -⟩ := hd
    subst h0; simp [hb]
  obtain ⟨ha, hm, ht⟩ := untrusted_session hk hses hpl
  rw [lib_forward hw1 hd hl hal] at h1
  have hg : globalLicense conf (withRoot st root) = (withRoot st root, .success) := by
    unfold globalLicense
    cases conf.globalFeature <;> simp [withRoot, ha]
  rw [hg] at h1
  simp only [Res.bind_ok, Res.ok.injEq, Prod.mk.injEq] at h1
  obtain ⟨rfl, rfl⟩ := h1
  refine ⟨rfl, ?_⟩
  have hlp : cstr ((withRoot st root).libpath.getD []) = root := hcr
  have fin : ∀ {s : LveSt} {code : Nat} {text : Bytes}, lveRun conf s turns2 = .ok (st2, replies2) →
      s.proto = .license → s.approved = false → s.toolErrType = code → s.toolErrMsg = some text → code ≤ 5 →
      (0 : UInt8) ∉ text → text.length < 100 →
      ∃ r, lveStep conf w st2 msg = .ok (st2, [r]) ∧ ErrorReply code text r := by
    intro s code text h2 h3 h4 h5 h6 h7 h8 h9
    obtain ⟨g1, g2, g3, g4⟩ := refusal_kept h3 h4 h2
    have := refusal_text (conf := conf) g4 g3 (code := code) (text := text) (by rw [g2, h5])
      (by unfold longMax; omega) (by rw [g1, h6]) (by omega) hw hf
    rwa [cstr_of_no_nul h8] at this
  unfold validateDirectory at h2
  rw [hlp] at h2
  cases hst : w1.stat root with
  | none =>
    rw [hst] at h2
    obtain ⟨r, h3, h4⟩ := fin h2 rfl ha (code := 4) rfl rfl (by omega) (by decide) (by decide)
    exact ⟨_, _, r, h3, .missing hst, h4⟩
  | some b =>
    rw [hst] at h2
    cases b with
    | false =>
      obtain ⟨r, h3, h4⟩ := fin h2 rfl ha (code := 4) rfl rfl (by omega) (by decide) (by decide)
      exact ⟨_, _, r, h3, .notDirectory hst, h4⟩
    | true =>
      obtain ⟨r, h3, h4⟩ := fin h2 rfl ha (code := 5) ht hm (by omega) (by decide) (by decide)
      exact ⟨_, _, r, h3, .notTrusted hst, h4⟩

-- one session with a key that is not trusted for each reason
example : [b!"LIB 2\n/x", b!"LIB 7\n/l/a.mo", b!"LIB 3\n/l/"].map (fun l =>
    (repliesOf (session (toyConf [b!"k"] none generous) (some b!"z") (inWorld
      (roomy [(b!"/l/a.mo", b!"model a end a;")] [b!"/l"]) [b!"VERSION 1\n", l, b!"FEATURE 1\ng", b!"FILE 4\na.mo"]))).map
      (·.drop 3)) =
    [some [[b!"ERROR 4 28\nLibrary path does not exist."]], some [[b!"ERROR 4 32\nLibrary path is not a directory."]],
     some [[b!"ERROR 5 16\nNot a valid tool"]]] := by decide +kernel

/-- **C76, libraries without a license.**  If the license manager has no license for the library, a trusted tool is
told the manager's reason in an `ERROR 7` in answer to LIB and to every FILE after it. -/
theorem c76_unlicensed {conf : LveConf} {k : Option Bytes} {turns : List (World × Bytes)} {st : LveSt}
    {replies : List (List Bytes)} (hses : Session conf k turns st replies) (ha : st.approved = true) {w1 : World}
    (hw1 : Ample w1) {lmsg d root why : Bytes} (hal : Allowed st.proto .lib) (hl : Carries lmsg .lib d)
    (hd : IsRootOf d root) (hnul : (0 : UInt8) ∉ d) (hlic : Unlicensed conf root why) (hwl : why.length < 2 ^ 63) :
    ∃ st1 r1, lveStep conf w1 st lmsg = .ok (st1, [r1]) ∧ ErrorReply 7 (cstr why) r1 ∧
      ∀ (st2 : LveSt) (turns2 : List (World × Bytes)) (replies2 : List (List Bytes)),
        lveRun conf st1 turns2 = .ok (st2, replies2) → ∀ (w : World) (msg p : Bytes), Ample w → Carries msg .file p →
        ∃ r, lveStep conf w st2 msg = .ok (st2, [r]) ∧ ErrorReply 7 (cstr why) r := by
  have hpl : st.proto ≠ .license := by
    intro h
    rw [h, allowed_iff] at hal
    simp [validNext] at hal
  have hcr : cstr root = root := by
    refine cstr_of_noNul fun b hb h0 => hnul ?_
    obtain ⟨seps, rfl, -⟩ := hd
    subst h0; simp [hb]
  obtain ⟨hm, hcalls, -⟩ := (sessMgr_session hses).2 hpl
  have hcc : cstr (cstr why) = cstr why := cstr_of_noNul fun b hb => by
    have := List.mem_takeWhile_imp hb
    simpa using this
  have hcl : (cstr why).length < 2 ^ 63 := Nat.lt_of_le_of_lt (cstr_length_le why) hwl
  have hg : ∃ s, globalLicense conf (withRoot st root) = (s, .failure (some why)) := by
    obtain ⟨g, hg, h⟩ := hlic
    unfold globalLicense
    rw [hg]
    simp only [withRoot, ha, if_true, setupLicensing, hm, Bool.false_eq_true, if_false, callManager, hcalls,
      Option.map_some, hcr, List.nil_append]
    rcases h with h | ⟨h, h'⟩
    · rw [h]; exact ⟨_, rfl⟩
    · rw [h]
      simp only
      rw [show [LicCall.new (some root)] ++ [LicCall.checkout g] = [.new (some root), .checkout g] from rfl, h']
      exact ⟨_, rfl⟩
  obtain ⟨s, hg⟩ := hg
  have he := reply_error_ok hw1 (code := 7) (by decide) (by decide) (t := cstr why) (by rw [hcc]; exact hcl)
  rcases reply_error (code := 7) he with ⟨r1, h1, h2⟩ | ⟨h1, -⟩
  · rw [hcc] at h2
    rw [h1] at he
    refine ⟨{ s with toolErrMsg := some (cstr why), toolErrType := 7, approved := false, proto := .license }, r1, ?_, h2,
      ?_⟩
    · rw [lib_forward hw1 hd hl hal, hg]
      simp only [he, Res.bind_ok]
    intro st2 turns2 replies2 hrun w msg p hw hf
    obtain ⟨g1, g2, g3, g4⟩ := refusal_kept rfl rfl hrun
    have := refusal_text (conf := conf) g4 g3 (code := 7) (text := cstr why) g2 (by decide) g1 hcl hw hf
    rwa [hcc] at this
  · simp at h1

example : Unlicensed (toyConf [b!"k"] (some b!"G") stingy) b!"/l" b!"no license" :=
  ⟨b!"G", rfl, by decide⟩
example : repliesOf (session (toyConf [b!"k"] (some b!"G") stingy) (some b!"k") (inWorld lib1
    [b!"VERSION 1\n", b!"LIB 2\n/l", b!"FILE 4\na.mo"])) =
    some [[b!"VERSION 1\n"], [b!"ERROR 7 10\nno license"], [b!"ERROR 7 10\nno license"]] := by decide +kernel

/-! ## C77 -/

/-- What a call ends with: success, or an error object that says why, or one without text in the cases that no text
is given for. -/
def EndsWithReason (k : ToolCall) (evs rest : List Ev) (out : ToolOut (Option FileContents)) : Prop :=
  out.isSuccess = true ∨ ∃ e, out = .failed (some (some e)) ∧
    (Explains k evs rest e ∨ (Unexplained evs rest ∧ e = ⟨1, 1, some []⟩))

theorem yes_reported {t : Tool} {evs rest : List Ev} {r : Reply} (ht : t.inn = fresh evs) (hw : Returns t.wevs)
    (k : ToolCall) (hk : takes k = [b!"YES"]) (c : CmdId) {arg : Bytes} (hs : arg.length < 2 ^ 30)
    (hr : Replies evs rest r) :
    ∃ out t', unitOut (sendExpectYes (fun _ => true) t c arg (some none)) = .ok (out, t') ∧ t'.inn = fresh rest ∧
      EndsWithReason k evs rest out := by
  have hcs : (cstr arg).length < 2 ^ 63 := by have := cstr_length_le arg; omega
  obtain ⟨t1, h1, h2⟩ := toolSend_returns hw c arg hcs
  rw [ht] at h2
  unfold sendExpectYes
  simp only [h1, Res.bind_ok]
  rcases expectCommand_text h2 hr k .yes (by decide) (by decide) hk with ⟨n, d, -, h⟩ | ⟨-, e, h, he⟩
  · rw [h]; exact ⟨_, _, rfl, rfl, Or.inl rfl⟩
  · rw [h]; exact ⟨_, _, rfl, rfl, Or.inr ⟨e, rfl, he⟩⟩

/-- **C77.**  Full statement: for every call of the interface and everything that can arrive in answer to it, the call
succeeds or leaves an error object whose domain, code and text say why it failed: what the connection reports, what is
wrong with the answer, the text of an ERROR, the reason of a refusal, which command came and which were expected.
This is false in the cases of `Unexplained` (see the `_not` theorems below), and C26 has those in which there is no
error object; it is shown here for every other answer. -/
theorem c77_partial {t : Tool} {evs rest : List Ev} {r : Reply} (ht : t.inn = fresh evs) (k : ToolCall)
    (hw : ∃ after, Writes t.wevs after) (hs : (callText k).length < 2 ^ 30) (hr : Replies evs rest r) :
    ∃ out t', valueCall (fun _ => true) t (some none) k = .ok (out, t') ∧ t'.inn = fresh rest ∧
      EndsWithReason k evs rest out := by
  obtain ⟨after, hwr⟩ := hw
  have hret : Returns t.wevs := by
    obtain ⟨n, h⟩ := hwr
    exact ⟨.written, by rw [h]; simp, by simp⟩
  have hcs : (cstr (callText k)).length < 2 ^ 63 := by have := cstr_length_le (callText k); omega
  cases k with
  | version lo hi =>
    simp only [valueCall]
    unfold toolVersion Tool.write
    rw [write_writes hwr]
    simp only
    rw [if_neg (by omega)]
    generalize ht1 : ({ t with wevs := after, wire := _ } : Tool) = t1
    have h2 : t1.inn = fresh evs := by rw [← ht1]; exact ht
    rcases expectCommand_text h2 hr (.version lo hi) .version (by decide) (by decide) rfl with
      ⟨n, d, rfl, h⟩ | ⟨-, e, h, he⟩
    · rw [h]
      simp only [Res.bind_ok]
      by_cases h3 : n < lo
      · rw [if_pos h3, errorSet_ok]
        exact ⟨_, _, rfl, rfl, Or.inr ⟨_, rfl, Or.inl (.tooLow rfl hr h3)⟩⟩
      · rw [if_neg h3]
        by_cases h4 : n > hi
        · rw [if_pos h4, errorSet_ok]
          exact ⟨_, _, rfl, rfl, Or.inr ⟨_, rfl, Or.inl (.tooHigh rfl hr (by omega) h4)⟩⟩
        · rw [if_neg h4]
          exact ⟨_, _, rfl, rfl, Or.inl rfl⟩
    · rw [h]; exact ⟨_, _, rfl, rfl, Or.inr ⟨e, rfl, he⟩⟩
  | libpath x => exact yes_reported ht hret _ rfl .lib hs hr
  | returnFeature x => exact yes_reported ht hret _ rfl .returnFeature hs hr
  | returnLicense x => exact yes_reported ht hret _ rfl .returnLicense hs hr
  | feature x =>
    obtain ⟨t1, h1, h2⟩ := toolSend_returns hret .feature x hcs
    rw [ht] at h2
    simp only [valueCall]
    unfold toolFeature
    simp only [h1, Res.bind_ok]
    rcases expectCommands_text h2 hr (.feature x) .yes [.no] (by decide) (by decide) rfl (by simp) with
      ⟨c, n, d, hc, rfl, h⟩ | ⟨-, e, h, he⟩
    · rw [h]
      simp only [List.mem_cons, List.not_mem_nil, or_false] at hc
      rcases hc with rfl | rfl
      · exact ⟨_, _, rfl, rfl, Or.inl rfl⟩
      · simp only [Res.bind_ok, reduceCtorEq, if_false, if_true, dataOf, CmdId.form, true_or,
          errorSetData_ok, List.nil_append, domainTool, codeNoLicense]
        exact ⟨_, _, rfl, rfl, Or.inr ⟨_, rfl, Or.inl (.refused (Or.inr rfl) hr)⟩⟩
    · rw [h]; exact ⟨_, _, rfl, rfl, Or.inr ⟨e, rfl, he⟩⟩
  | license x =>
    obtain ⟨t1, h1, h2⟩ := toolSend_returns hret .license x hcs
    rw [ht] at h2
    simp only [valueCall]
    unfold toolLicense
    simp only [h1, Res.bind_ok]
    rcases expectCommands_text h2 hr (.license x) .yes [.notSimple, .no] (by decide) (by decide) rfl (by simp) with
      ⟨c, n, d, hc, rfl, h⟩ | ⟨-, e, h, he⟩
    · rw [h]
      simp only [List.mem_cons, List.not_mem_nil, or_false] at hc
      rcases hc with rfl | rfl | rfl
      · exact ⟨_, _, rfl, rfl, Or.inl rfl⟩
      · simp only [Res.bind_ok, reduceCtorEq, if_false, if_true, errorSetLiteral, errorNewLiteral, domainTool,
          codeNotSimplified]
        exact ⟨_, _, rfl, rfl, Or.inr ⟨_, rfl, Or.inl (.notSimple rfl hr)⟩⟩
      · simp only [Res.bind_ok, reduceCtorEq, if_false, if_true, dataOf, CmdId.form, true_or,
          errorSetData_ok, List.nil_append, domainTool, codeNoLicense]
        exact ⟨_, _, rfl, rfl, Or.inr ⟨_, rfl, Or.inl (.refused (Or.inl rfl) hr)⟩⟩
    · rw [h]; exact ⟨_, _, rfl, rfl, Or.inr ⟨e, rfl, he⟩⟩
  | file x =>
    obtain ⟨t1, h1, h2⟩ := toolSend_returns hret .file x hcs
    rw [ht] at h2
    simp only [valueCall]
    unfold toolFile
    simp only [h1, Res.bind_ok]
    rcases expectCommand_text h2 hr (.file x) .fileCont (by decide) (by decide) rfl with
      ⟨n, d, rfl, h⟩ | ⟨-, e, h, he⟩
    · rw [h]; exact ⟨_, _, rfl, rfl, Or.inl rfl⟩
    · rw [h]; exact ⟨_, _, rfl, rfl, Or.inr ⟨e, rfl, he⟩⟩

/-- What arrives is one answer. -/
theorem replies_unique {evs rest rest' : List Ev} {r r' : Reply} (h : Replies evs rest r) (h' : Replies evs rest' r') :
    r = r' := by
  have nodata : ∀ {rest : List Ev} {c : CmdId} {n : Int} {d : Bytes}, Replies evs rest (.command c n d) →
      dataOf c d = none → d = [] := by
    intro rest c n d h hd
    cases h with
    | plain => rfl
    | pieces _ _ _ _ hf => rcases hf with hf | hf <;> simp [dataOf, hf] at hd
    | extra _ _ _ _ hf => rcases hf with hf | hf <;> simp [dataOf, hf] at hd
  cases r with
  | broken =>
    cases r' with
    | broken => rfl
    | command c n d =>
      obtain ⟨e, h1, -⟩ := readCommand_broken_text h (.version 0 0)
      have h2 := readCommand_command h' (some none)
      rw [h1] at h2
      simp at h2
  | command c n d =>
    cases r' with
    | broken =>
      obtain ⟨e, h1, -⟩ := readCommand_broken_text h' (.version 0 0)
      have h2 := readCommand_command h (some none)
      rw [h1] at h2
      simp at h2
    | command c' n' d' =>
      have h1 := readCommand_command h none
      rw [readCommand_command h' none] at h1
      simp only [Res.ok.injEq, Prod.mk.injEq, ReadOut.done.injEq, Command.mk.injEq, and_true] at h1
      obtain ⟨⟨rfl, rfl, -, h2⟩, -⟩ := h1
      by_cases hf : c'.form = .length ∨ c'.form = .numberAndLength
      · simp only [dataOf, if_pos hf, Option.some.injEq, Buf.mk.injEq, List.append_cancel_right_eq] at h2
        rw [List.map_inj_right (by simp)] at h2
        rw [h2]
      · rw [nodata h (by simp only [dataOf, if_neg hf]), nodata h' (by simp only [dataOf, if_neg hf])]

theorem unexplained_broken {evs rest : List Ev} (h : Unexplained evs rest) : Replies evs rest .broken := by
  rcases h with ⟨pre, code, h1, h2⟩ | ⟨b, h1, h2 | h2⟩
  · exact .failure h1 h2
  · exact .tooLong h1 h2
  · obtain ⟨c, name, sh, good, w, more, h3, h4, h5, -, h6⟩ := h2
    exact .malformed h1 (.notInt h3 h4 h5 ⟨w, by simp, blank_not_denotes h6⟩)

theorem complaint_rejected {msg text : Bytes} (h : Complaint msg text) : ∃ g, Rejected msg g := by
  cases h with
  | empty h => exact ⟨_, .empty h⟩
  | unknown h1 h2 => exact ⟨_, .unknown h1 h2⟩
  | few h1 h2 h3 => exact ⟨_, .few h1 h2 h3⟩
  | many h1 h2 h3 => exact ⟨_, .many h1 h2 h3⟩
  | notInt h1 h2 h3 h4 h5 => exact ⟨_, .notInt h1 h2 h3 ⟨_, by simp, h5⟩⟩
  | negative h1 h2 h3 h4 h5 h6 h7 h8 => exact ⟨_, .negative h1 h2 h3 h4 h5 ⟨_, h6, h7⟩ h8⟩

/-- **C77, codes.**  When a call fails, the domain of the error object is that of the protocol if no answer could be
read and that of the tool interface otherwise; code 3 means exactly that a license or a feature was refused, code 4
exactly that the vendor executable has no simplified licensing, and all other failures have code 1. -/
theorem c77_codes_partial {t t' : Tool} {evs rest : List Ev} {r : Reply} (ht : t.inn = fresh evs) (k : ToolCall)
    (hw : ∃ after, Writes t.wevs after) (hs : (callText k).length < 2 ^ 30) (hr : Replies evs rest r) {l : ErrLoc}
    (hc : valueCall (fun _ => true) t (some none) k = .ok (.failed l, t')) :
    ∃ e, l = some (some e) ∧ (e.domain = 1 ↔ r = .broken) ∧ (e.domain = 2 ↔ r ≠ .broken) ∧
      (e.code = 3 ↔ r.is .no ∧ ∃ x, k = .license x ∨ k = .feature x) ∧
      (e.code = 4 ↔ r.is .notSimple ∧ ∃ x, k = .license x) ∧ (e.code = 1 ∨ e.code = 3 ∨ e.code = 4) := by
  obtain ⟨out, t'', h1, -, h2⟩ := c77_partial ht k hw hs hr
  rw [hc] at h1
  simp only [Res.ok.injEq, Prod.mk.injEq] at h1
  obtain ⟨rfl, -⟩ := h1
  rcases h2 with h2 | ⟨e, h2, h3⟩
  · simp [ToolOut.isSuccess] at h2
  simp only [ToolOut.failed.injEq] at h2
  refine ⟨e, h2, ?_⟩
  have hb : r = .broken → ¬ r.is .no ∧ ¬ r.is .notSimple := by
    rintro rfl
    exact ⟨by rintro ⟨n, d, h⟩; simp at h, by rintro ⟨n, d, h⟩; simp at h⟩
  rcases h3 with h3 | ⟨h3, rfl⟩
  · cases h3 with
    | connection h4 h5 =>
      have h := replies_unique hr (.failure h4 h5)
      simp [h]
      exact ⟨fun h' => ((hb h).1 (by rw [h]; exact h')).elim, fun h' => ((hb h).2 (by rw [h]; exact h')).elim⟩
    | malformed h4 h5 h6 h7 =>
      obtain ⟨g, hg⟩ := complaint_rejected h7
      have h := replies_unique hr (.malformed h4 hg)
      simp [h]
      exact ⟨fun h' => ((hb h).1 (by rw [h]; exact h')).elim, fun h' => ((hb h).2 (by rw [h]; exact h')).elim⟩
    | error h4 =>
      have h := replies_unique hr h4
      subst h
      simp [Reply.is]
    | notThis h4 h5 h6 h7 h8 =>
      have h := replies_unique hr h4
      subst h
      cases k <;> simp [takes] at h7 <;> simp [Reply.is]
    | noneOf h4 h5 h6 h7 h8 =>
      have h := replies_unique hr h4
      subst h
      obtain ⟨-, -, hn, -⟩ := findCommand_of_mem h5
      subst hn
      cases k <;> simp [takes] at h7 h8 <;> simp [Reply.is]
      · rintro rfl; exact h8.2 rfl
      · exact ⟨by rintro rfl; exact h8.2.2 rfl, by rintro rfl; exact h8.2.1 rfl⟩
    | tooLow h4 h5 =>
      have h := replies_unique hr h5
      subst h
      simp [Reply.is]
    | tooHigh h4 h5 =>
      have h := replies_unique hr h5
      subst h
      simp [Reply.is]
    | notSimple h4 h5 =>
      have h := replies_unique hr h5
      subst h
      simp [Reply.is, h4]
    | refused h4 h5 =>
      have h := replies_unique hr h5
      subst h
      rcases h4 with h4 | h4 <;> simp [Reply.is, h4]
  · have h := replies_unique hr (unexplained_broken h3)
    simp [h]
    exact ⟨fun h' => ((hb h).1 (by rw [h]; exact h')).elim, fun h' => ((hb h).2 (by rw [h]; exact h')).elim⟩

-- one of each kind
example : ([(.libpath b!"/l", [.fail 5 [b!"shut down"]]), (.libpath b!"/l", [.record b!"MAYBE\n\n" []]),
    (.file b!"a", [.record b!"ERROR 6 3\nbad" []]), (.file b!"a", [.record b!"YES\n" []]),
    (.feature b!"f", [.record b!"NOTSIMPLE\n" []]), (.version 2 3, [.record b!"VERSION 1\n" []]),
    (.version 2 3, [.record b!"VERSION 4\n" []]), (.license b!"p", [.record b!"NOTSIMPLE\n" []]),
    (.feature b!"f", [.record b!"NO 4\nnope" []])] : List (ToolCall × List Ev)).map
      (fun p => (match valueCall (fun _ => true) (online p.2) (some none) p.1 with
        | .ok (.failed (some (some e)), _) => some e
        | _ => none)) =
    [some ⟨1, 1, some b!"SSL_ERROR_SYSCALL. reason: shut down"⟩, some ⟨1, 1, some b!"Unknown command MAYBE."⟩,
     some ⟨2, 1, some b!"Got ERROR command with message: bad"⟩,
     some ⟨2, 1, some b!"Unexpected command. Expected command FILECONT, but got command YES."⟩,
     some ⟨2, 1, some b!"Unexpected command NOTSIMPLE. Expected one of the following commands: YES, NO"⟩,
     some ⟨2, 1, some b!"Protocol version from LVE too low."⟩, some ⟨2, 1, some b!"Protocol version from LVE too high."⟩,
     some ⟨2, 4, some b!"Library vendor executable doesn't use simplified licensing, use command FEATURE instead."⟩,
     some ⟨2, 3, some b!"nope"⟩] := by decide +kernel

/-- **C77 is false when the vendor executable dies**: its end of the connection is gone, OpenSSL has nothing to say
about that, and the text is empty. -/
theorem c77_connection_not : Unexplained [.fail 5 []] [] ∧ ∃ t, valueCall (fun _ => true) (online [.fail 5 []]) (some none)
    (.libpath b!"/l") = .ok (.failed (some (some ⟨1, 1, some []⟩)), t) :=
  ⟨Or.inl ⟨[], 5, rfl, by simp⟩, _, rfl⟩

/-- **C77 is false for an answer with an argument of white space**: the text is empty. -/
theorem c77_blank_not : Unexplained [.record b!"VERSION \t\n\n" []] [] ∧ ∃ t, valueCall (fun _ => true)
    (online [.record b!"VERSION \t\n\n" []]) (some none) (.version 1 1) =
      .ok (.failed (some (some ⟨1, 1, some []⟩)), t) := by
  refine ⟨Or.inr ⟨b!"VERSION \t\n\n", .cons (pre := []) (by simp) (by simp) (.nil _), Or.inr ⟨.version, b!"VERSION",
    .num, [], b!"\t", [], by decide, by decide, by decide, by simp, by unfold Blank; decide⟩⟩, _, rfl⟩

end Semla.Props
