import Verif.Props.LveFile
import Mathlib.Data.List.Induction

/-!
# Properties of sessions with the vendor executable: confinement and robustness

C18, C23, C24.
-/

set_option linter.unusedSimpArgs false

namespace Semla.Props

open Semla Semla.Spec

/-! ## C18 -/

/-- The library /l and a file outside of it. -/
def lib3 : World := roomy [(b!"/l/a.mo", b!"model a end a;"), (b!"/l/../secret", b!"password")] [b!"/l"]

/-- **C18 is false**: a requested path may lead out of the library. -/
theorem c18_escape_not :
    repliesOf (session (toyConf [b!"k"] none generous) (some b!"k")
      (inWorld lib3 [b!"VERSION 1\n", b!"LIB 2\n/l", b!"FILE 9\n../secret"])) =
      some [[b!"VERSION 1\n"], [b!"YES\n"], [b!"FILECONT 8\npassword"]] ∧
    ¬ Inside b!"/l" b!"/l/../secret" := by
  refine ⟨by decide +kernel, ?_⟩
  rintro ⟨below, h⟩
  have h1 : walk [] (components b!"/l/../secret") = [b!"secret"] := by decide
  have h2 : walk [] (components b!"/l") = [b!"l"] := by decide
  rw [h1, h2] at h
  rcases below with _ | ⟨x, _ | ⟨y, below⟩⟩
  · revert h; decide
  · simp at h
  · simp at h

theorem components_ne_nil (p : Bytes) : components p ≠ [] := by
  cases p with
  | nil => simp [components]
  | cons c cs => unfold components; split <;> simp

theorem components_slash (a b : Bytes) : components (a ++ b!"/" ++ b) = components a ++ components b := by
  induction a with
  | nil => simp [components]
  | cons c cs ih =>
    have hne := components_ne_nil cs
    simp only [List.cons_append, components]
    rw [ih]
    split
    · simp
    · cases h : components cs with
      | nil => exact absurd h hne
      | cons x xs => simp

theorem walk_append (h a b : List Bytes) : walk h (a ++ b) = walk (walk h a) b := by
  induction a generalizing h with
  | nil => rfl
  | cons c cs ih =>
    simp only [List.cons_append, walk]
    split
    · exact ih h
    · split
      · exact ih _
      · exact ih _

theorem walk_below {cs : List Bytes} (hn : b!".." ∉ cs) (h : List Bytes) : ∃ below, walk h cs = below ++ h := by
  induction cs generalizing h with
  | nil => exact ⟨[], rfl⟩
  | cons c cs ih =>
    have hc : c ≠ b!".." := fun hc => hn (by simp [hc])
    have hcs : b!".." ∉ cs := fun hc => hn (by simp [hc])
    simp only [walk]
    split
    · exact ih hcs h
    · obtain ⟨b, hb⟩ := ih hcs (c :: h)
      exact ⟨b ++ [c], by simp [hb]⟩

theorem read_holds {w : World} {path content : Bytes} (h : readFile w path = .contents content) :
    Holds w path content := by
  unfold readFile at h
  split at h
  · cases h
  · cases h
  · cases h
  · rename_i size bytes io hf
    split at h
    · cases io with
      | none =>
        simp only [ReadFile.contents.injEq] at h
        exact ⟨size, bytes, none, hf, h.symm, Or.inl rfl⟩
      | some why =>
        simp only at h
        split at h
        · cases h
        · rename_i hl
          simp only [ReadFile.contents.injEq] at h
          refine ⟨size, bytes, some why, hf, h.symm, Or.inr ?_⟩
          simp at hl; exact hl
    · cases h

/-- **C18, what holds** (full statement without the hypothesis on `..`; false as shown above).  Contents sent in
answer to a FILE request whose path has no part `..` come from a file in or below the library root. -/
theorem c18_confined_partial {conf : LveConf} {k : Option Bytes} {turns : List (World × Bytes)} {st st' : LveSt}
    {replies : List (List Bytes)} (hses : Session conf k turns st replies) {root : Bytes}
    (hl : st.libpath = some root) {w : World} (hw : Ample w) {msg p : Bytes} (hc : Carries msg .file p)
    (hsz : root.length + p.length + 2 < 2 ^ 64) (hdots : b!".." ∉ components (cstr p)) {out : List Bytes}
    (h : lveStep conf w st msg = .ok (st', out)) {r : Bytes} (hr : r ∈ out) (hk : OfKind b!"FILECONT" r) :
    ∃ path content, Inside (cstr root) path ∧ Holds w path content ∧
      (¬ IsMoc (cstr p) → DataReply b!"FILECONT" content r) := by
  have hp := session_license hses hl
  have notErr : ¬ OfKind b!"ERROR" r := fun he => absurd (kind_unique (a := .error) (b := .fileCont) he hk) (by decide)
  refine ⟨cstr root ++ b!"/" ++ cstr p, ?_⟩
  have hin : Inside (cstr root) (cstr root ++ b!"/" ++ cstr p) := by
    unfold Inside
    rw [components_slash, walk_append]
    exact walk_below hdots _
  have ha : st.approved = true := by
    cases ha : st.approved with
    | true => rfl
    | false =>
      cases step_effect h with
      | file _ _ _ hf => exact absurd ((file_out (errInv_session hses) hf).2.2.1 ha r hr) notErr
      | refused h1 ho => exact absurd (errOut_kind (reply_error (code := 1) ho) r hr) notErr
      | low hp' => rw [hp] at hp'; cases hp'
      | version hp' => rw [hp] at hp'; cases hp'
      | tools hp' => rw [hp] at hp'; cases hp'
      | lib hp' => rw [hp] at hp'; rcases hp' with hp' | hp' <;> cases hp'
      | feature _ hb =>
        obtain ⟨_, _, n0, -, -, hacc, -, -⟩ := hc
        exact absurd (accepts_unique hacc hb).1 (by decide)
      | returnFeature _ hb =>
        obtain ⟨_, _, n0, -, -, hacc, -, -⟩ := hc
        exact absurd (accepts_unique hacc hb).1 (by decide)
      | license _ hc' hb =>
        obtain ⟨_, _, n0, -, -, hacc, -, -⟩ := hc
        have := (accepts_unique hacc hb).1
        rcases hc' with rfl | rfl <;> cases this
  rw [file_step hw hp hc, file_forward hw ha hl (pathInv_session hses _ hl) hsz] at h
  cases hrf : readFile w (cstr root ++ b!"/" ++ cstr p) with
  | failed e =>
    rw [hrf] at h
    simp only [Res.bind_eq_ok] at h
    obtain ⟨⟨s, o⟩, ⟨m, -, o', h1, h2⟩, h3⟩ := h
    simp only [Res.ok.injEq, Prod.mk.injEq] at h2 h3
    obtain ⟨rfl, rfl⟩ := h2
    obtain ⟨-, rfl⟩ := h3
    rcases fileError_cases (code := 6) h1 with ⟨-, rfl⟩ | ⟨t, -, h4⟩
    · simp at hr
    · exact absurd (errOut_kind h4 r hr) notErr
  | contents content =>
    refine ⟨content, hin, read_holds hrf, fun hn => ?_⟩
    have hn' : isEncryptedName (cstr p) = false := by
      rw [← isEncryptedName_iff] at hn; simpa using hn
    rw [hrf] at h
    simp only [hn', Bool.false_eq_true, if_false, Res.bind_eq_ok] at h
    obtain ⟨⟨s, o⟩, ⟨o', h1, h2⟩, h3⟩ := h
    simp only [Res.ok.injEq, Prod.mk.injEq] at h2 h3
    obtain ⟨rfl, rfl⟩ := h2
    obtain ⟨-, rfl⟩ := h3
    rcases reply_length (c := .fileCont) h1 with ⟨r', rfl, h4⟩ | ⟨rfl, -⟩
    · simp at hr; subst hr; exact h4
    · simp at hr

example : b!".." ∉ components b!"a..b/./x..mo" ∧ Inside b!"/l/m" (b!"/l/m" ++ b!"/" ++ b!"a..b/./x..mo") :=
  ⟨by decide, [b!"x..mo", b!"a..b"], by decide⟩

/-! ## C23 -/

/-- **C23 is false**: after an empty LIB, a FILE request makes the executable use a null pointer. -/
theorem c23_empty_lib_not : session (toyConf [b!"k"] none generous) (some b!"k")
    (inWorld lib1 [b!"VERSION 1\n", b!"LIB 0\n", b!"FILE 4\na.mo"]) = .ub .nullDeref := by decide +kernel

/-- **C23 is false**: a directory that appears after LIB failed is served from.  (The tool is told YES all
the same.) -/
theorem c23_late_directory_not : repliesOf (session (toyConf [b!"k"] none generous) (some b!"k")
    [(roomy [] [], b!"VERSION 1\n"), (roomy [] [], b!"LIB 2\n/l"), (lib1, b!"FILE 4\na.mo")]) =
    some [[b!"VERSION 1\n"], [b!"YES\n"], [b!"FILECONT 14\nmodel a end a;"]] := by decide +kernel

/-- What an operating system guarantees: nothing is found below what is not a directory. -/
def Sane (w : World) : Prop := ∀ d q, w.stat d ≠ some true → Unreadable w (d ++ b!"/" ++ q)

theorem errMsg_bound {conf : LveConf} {k : Option Bytes} {turns : List (World × Bytes)} {st : LveSt}
    {replies : List (List Bytes)} (h : Session conf k turns st replies) : ErrInv st := errInv_session h

/-- A single ERROR reply. -/
def OneError (out : List Bytes) : Prop := ∃ r, out = [r] ∧ OfKind b!"ERROR" r

/-- **C23, what holds for a path that is no directory** (full statement: for every failed LIB, and without the
hypotheses on later worlds; false as shown above).  If LIB was given a non-empty path and FILE requests are made
while there is no directory at the library root made of it, each of them is answered by one ERROR; for an
approved tool the executable is sure to survive it, too. -/
theorem c23_not_directory_partial {conf : LveConf} {k : Option Bytes} {turns turns2 : List (World × Bytes)}
    {st st1 st2 : LveSt} {replies replies2 : List (List Bytes)} (hses : Session conf k turns st replies)
    {w1 : World} (hw1 : Ample w1) {lmsg data : Bytes} {out1 : List Bytes} (hal : Allowed st.proto .lib)
    (hlib : Carries lmsg .lib data) (hne : data ≠ []) (h1 : lveStep conf w1 st lmsg = .ok (st1, out1))
    {root : Bytes} (hroot : IsRootOf data root)
    (h2 : lveRun conf st1 turns2 = .ok (st2, replies2))
    {w : World} (hw : Ample w) (hsane : Sane w) (hdir : w.stat (cstr root) ≠ some true)
    {msg p : Bytes} (hc : Carries msg .file p) (hsz : root.length + p.length + 2 < 2 ^ 64) :
    (∀ st3 out, lveStep conf w st2 msg = .ok (st3, out) → OneError out) ∧
    (st2.approved = true → ∃ st3 out, lveStep conf w st2 msg = .ok (st3, out)) := by
  obtain ⟨root', hl1, hs1, hr'⟩ := c19_root hal hlib hne (hw1 _) h1
  have := isRootOf_unique hr' hroot
  subst this
  obtain ⟨_, _, n0, -, -, hacc, -, -⟩ := id hlib
  have hp1 := c12_lib_is_final hacc hal h1
  obtain ⟨hl2, -, hp2⟩ := c12_root_fixed hp1 h2
  rw [hl1] at hl2
  have hses2 : Session conf k (turns ++ (w1, lmsg) :: turns2) st2 (replies ++ out1 :: replies2) := by
    obtain ⟨st0, hs0, hs1⟩ := hses
    refine ⟨st0, hs0, ?_⟩
    rw [run_append, hs1]
    simp [lveRun, h1, h2]
  have hi := errInv_session hses2
  have hun := hsane (cstr root') (cstr p) hdir
  cases ha : st2.approved with
  | true =>
    obtain ⟨r, text, h3, h4, -⟩ := c17_unreadable hses2 ha hl2 hw hc hsz hun
    refine ⟨?_, fun _ => ⟨_, _, h3⟩⟩
    intro st3 out h5
    rw [h3] at h5
    simp only [Res.ok.injEq, Prod.mk.injEq] at h5
    exact ⟨r, h5.2.symm, errorReply_kind h4⟩
  | false =>
    refine ⟨?_, by simp⟩
    intro st3 out h5
    rw [file_step hw hp2 hc] at h5
    rw [Res.bind_eq_ok] at h5
    obtain ⟨⟨s, o⟩, h6, h7⟩ := h5
    simp only [Res.ok.injEq, Prod.mk.injEq] at h7
    obtain ⟨-, rfl⟩ := h7
    obtain ⟨-, h8, h9, -⟩ := file_out hi h6
    rcases h8 with ⟨r, rfl⟩ | ⟨-, h8⟩
    · exact ⟨r, rfl, h9 ha r (by simp)⟩
    · exact absurd hw h8

theorem roomy_sane : Sane (roomy [] []) := by
  intro d q _
  exact ⟨_, Or.inl rfl⟩

example : repliesOf (session (toyConf [b!"k"] none generous) (some b!"k")
    (inWorld (roomy [] []) [b!"VERSION 1\n", b!"LIB 2\n/l", b!"FILE 4\na.mo"])) =
    some [[b!"VERSION 1\n"], [b!"YES\n"],
      [b!"ERROR 6 76\nCouldn't open file /l/a.mo. The error message was: No such file or directory"]] := by
  decide +kernel

/-- **C23, what holds for a LIB refused for lack of a license.** If LIB was answered by an ERROR, no later message
is answered by file contents, whatever the world is like then. -/
theorem c23_refused {conf : LveConf} {k : Option Bytes} {turns turns2 : List (World × Bytes)}
    {st st1 st2 : LveSt} {replies replies2 : List (List Bytes)} (hses : Session conf k turns st replies)
    {w1 : World} {lmsg : Bytes} {n : Int} {len : Nat} {r1 : Bytes} (hal : Allowed st.proto .lib)
    (hlib : Accepts lmsg .lib n len) (h1 : lveStep conf w1 st lmsg = .ok (st1, [r1])) (he : OfKind b!"ERROR" r1)
    (h2 : lveRun conf st1 turns2 = .ok (st2, replies2)) :
    ∀ out ∈ replies2, ∀ r ∈ out, ¬ OfKind b!"FILECONT" r := by
  have hap1 : st1.approved = false := by
    cases step_effect h1 with
    | refused hr => exact absurd hal ((refusable_iff hlib).1 hr)
    | low _ hb => exact absurd (accepts_unique hlib hb).1 (by decide)
    | version _ hb => exact absurd (accepts_unique hlib hb).1 (by decide)
    | tools _ hb => exact absurd (accepts_unique hlib hb).1 (by decide)
    | lib _ hb hx hl =>
      rcases lib_cases hl with ⟨-, ho, -⟩ | ⟨buf, d, hd, -, hr, ⟨-, ho, -⟩ | ⟨s1, m, hg, -, -, rfl⟩ |
        ⟨s1, hg, ho, hv⟩⟩
      · simp at ho
      · simp at ho
      · rfl
      · simp only [List.cons.injEq, and_true] at ho
        subst ho
        exact absurd (kind_unique (a := .error) (b := .yes) he (simple_kind .yes)) (by decide)
    | feature hp => rw [hp] at hal; cases hal with | stage h => simp [licenseStage] at h
    | returnFeature hp => rw [hp] at hal; cases hal with | stage h => simp [licenseStage] at h
    | license hp => rw [hp] at hal; cases hal with | stage h => simp [licenseStage] at h
    | file hp => rw [hp] at hal; cases hal with | stage h => simp [licenseStage] at h
  have hp1 := c12_lib_is_final hlib hal h1
  have hi1 : ErrInv st1 := errInv_step (errInv_session hses) (step_effect h1)
  have := (run_forall (conf := conf) (P := fun s => s.approved = false ∧ ErrInv s ∧ s.proto = .license)
    (Q := fun _ out => ∀ r ∈ out, ¬ OfKind b!"FILECONT" r) ?_ ⟨hap1, hi1, hp1⟩ h2).2
  · intro out ho
    obtain ⟨t, -, ht⟩ := forall₂_mem this.flip out ho
    exact ht
  · rintro w s msg s' out ⟨ha, hi, hp⟩ he
    have nofc : ∀ {c : CmdId} {r}, OfKind c.name r → c ≠ .fileCont → ¬ OfKind b!"FILECONT" r :=
      fun hk hc hf => hc (kind_unique hk (b := .fileCont) hf)
    have hi' := errInv_step hi he
    cases he with
    | refused _ ho =>
      exact ⟨⟨ha, hi', hp⟩, fun r hr => nofc (c := .error) (errOut_kind (reply_error (code := 1) ho) r hr) (by decide)⟩
    | low hp' => rw [hp] at hp'; cases hp'
    | version hp' => rw [hp] at hp'; cases hp'
    | tools hp' => rw [hp] at hp'; cases hp'
    | lib hp' => rw [hp] at hp'; rcases hp' with hp' | hp' <;> cases hp'
    | feature _ _ _ h =>
      refine ⟨⟨?_, hi', rfl⟩, fun r hr => ?_⟩
      · obtain ⟨b, cs, rfl⟩ := feature_frame h; exact ha
      · rcases (feature_out h).2.2 r hr with h | h | h
        · exact nofc (c := .error) h (by decide)
        · exact nofc (c := .yes) h (by decide)
        · exact nofc (c := .no) h (by decide)
    | returnFeature _ _ _ h =>
      refine ⟨⟨?_, hi', rfl⟩, fun r hr => ?_⟩
      · obtain ⟨b, cs, rfl⟩ := returnFeature_frame h; exact ha
      · rcases (returnFeature_out h).2.2 r hr with h | h
        · exact nofc (c := .error) h (by decide)
        · exact nofc (c := .yes) h (by decide)
    | license =>
      refine ⟨⟨ha, hi', rfl⟩, fun r hr => ?_⟩
      simp only [List.mem_singleton] at hr; subst hr
      exact nofc (simple_kind .notSimple) (by decide)
    | file _ _ _ h =>
      refine ⟨⟨?_, hi', rfl⟩, fun r hr => nofc (c := .error) ((file_out hi h).2.2.1 ha r hr) (by decide)⟩
      obtain ⟨t, rfl⟩ := file_frame h; exact ha

-- a tool refused for lack of the global license gets no files, even after the license has become available
example : repliesOf (session (toyConf [b!"k"] (some b!"g") (fun cs => if cs.length = 2 then .failure (some b!"no") else .success))
    (some b!"k") (inWorld lib1 [b!"VERSION 1\n", b!"LIB 2\n/l", b!"FEATURE 1\ng", b!"FILE 4\na.mo"])) =
    some [[b!"VERSION 1\n"], [b!"ERROR 7 2\nno"], [b!"YES\n"], [b!"ERROR 7 2\nno"]] := by decide +kernel

/-! ## C24 -/

/-- A license manager that fails without a message. -/
def silent : List LicCall → LicAnswer := fun _ => .failure none

/-- The encrypted form of a source file in a directory without package file. -/
def loneFile : Bytes :=
  match crEncrypt (toyEnv []) [] b!"x.mo" toyIv (fun _ => []) (List.replicate 40 65) false (fun _ => true) with
  | .ok (_, o, _) => o
  | .ub _ => []

/-- **C24 is false** in several ways.  Each of these sessions makes the executable misbehave: a NUL in the first
line of FILE, FILE after an empty LIB, more data than announced, less data than announced, an encrypted file of
14 bytes, an encrypted file with a short name in a directory without package file, a license manager
that fails without a message, a client without certificate. -/
theorem c24_survives_not :
    session (toyConf [b!"k"] none generous) (some b!"k")
      (inWorld lib1 [b!"VERSION 1\n", b!"LIB 2\n/l", b!"FILE 4" ++ [0] ++ b!"\na.mo"]) = .ub .nullDeref ∧
    session (toyConf [b!"k"] none generous) (some b!"k")
      (inWorld lib1 [b!"VERSION 1\n", b!"LIB 0\n", b!"FILE 4\na.mo"]) = .ub .nullDeref ∧
    session (toyConf [b!"k"] none generous) (some b!"k")
      (inWorld lib1 [b!"VERSION 1\n", b!"LIB 2\n/library"]) = .ub .oobWrite ∧
    session (toyConf [b!"k"] none generous) (some b!"k")
      (inWorld lib1 [b!"VERSION 1\n", b!"LIB 9\n/l"]) = .ub .uninit ∧
    session (toyConf [b!"k"] none generous) (some b!"k")
      (inWorld (roomy [(b!"/l/a.moc", List.replicate 14 0)] [b!"/l"])
        [b!"VERSION 1\n", b!"LIB 2\n/l", b!"FILE 5\na.moc"]) = .ub .oobRead ∧
    session (toyConf [b!"k"] none generous) (some b!"k")
      (inWorld (roomy [(b!"/l/x.moc", loneFile)] [b!"/l"])
        [b!"VERSION 1\n", b!"LIB 2\n/l", b!"FILE 5\nx.moc"]) = .ub .sizeWrap ∧
    session (toyConf [b!"k"] none silent) (some b!"k")
      (inWorld lib1 [b!"VERSION 1\n", b!"LIB 2\n/l", b!"FEATURE 1\nf"]) = .ub .nullDeref ∧
    session (toyConf [b!"k"] none generous) none [] = .ub .nullDeref := by
  refine ⟨?_, ?_, ?_, ?_, ?_, ?_, ?_, ?_⟩ <;> decide +kernel

/-- A license manager that explains every failure. -/
def Polite (conf : LveConf) : Prop :=
  ∀ calls m, conf.licenseManager calls = .failure m → ∃ t, m = some t ∧ t.length < 2 ^ 63

/-- Messages that carry the data they announce, where the path of LIB satisfies `L` and that of FILE `F`. -/
def Tame (L F : Bytes → Prop) (msg : Bytes) : Prop :=
  ∀ c n len, Accepts msg c n len → c = .lib ∨ c ∈ licenseStage → ∃ d, Carries msg c d ∧
    (c = .lib → L d) ∧ (c = .file → F d)

/-- A path of at most `n` bytes, but not empty. -/
def ShortPath (n : Nat) (p : Bytes) : Prop := p ≠ [] ∧ p.length ≤ n

/-- A path of at most `n` bytes, and at least 11 if it is the one of an encrypted file. -/
def PlainPath (n : Nat) (p : Bytes) : Prop := p.length ≤ n ∧ (IsMoc (cstr p) → 11 ≤ (cstr p).length)

/-- Files of less than 2 GB. -/
def SmallFiles (w : World) : Prop := ∀ path content, Holds w path content → content.length < 2 ^ 31

/-- Files with extension .moc are not of a size that makes decryption misbehave. -/
def SaneFiles (keyLen : Nat) (w : World) : Prop :=
  ∀ path content, Holds w path content → IsMoc path →
    15 ≤ content.length ∧ (content.length < 64 ∨ 64 + keyLen ≤ content.length)

/-- What holds in a session with tame messages. -/
def TameInv (R : Bytes → Prop) (I : MaskTable → Prop) (st : LveSt) : Prop :=
  (∀ m, st.toolErrMsg = some m → m.length < 2 ^ 63) ∧
  (st.proto = .license → ∃ r t, st.libpath = some r ∧ R r ∧ st.cr = some t ∧ I t)

/-- Replies whose data is shorter than 2^63 bytes. -/
def Fit (out : List Bytes) : Prop := ∀ r ∈ out, (Payload r).length < 2 ^ 63

theorem payload_line {line d : Bytes} (h : IsLine line) : Payload (line ++ 10 :: d) = d := by
  unfold Payload
  rw [List.dropWhile_append_of_pos (fun x hx => by simpa using (h x hx).2)]
  simp

theorem payload_length (msg : Bytes) : (Payload msg).length ≤ msg.length := by
  unfold Payload
  have := (List.dropWhile_sublist (l := msg) (· ≠ 10)).length_le
  rw [List.length_drop]; omega

theorem fit_data {c : CmdId} {d : Bytes} (h : d.length < 2 ^ 63) : Fit [line2 c.name (decNat d.length) ++ d] := by
  intro r hr
  simp only [List.mem_singleton] at hr
  subst hr
  have := payload_line (d := d) (line2_isLine c d.length)
  rw [show line2 c.name (decNat d.length) ++ d = c.name ++ b!" " ++ decNat d.length ++ 10 :: d by simp [line2], this]
  exact h

theorem errorReply_payload {code : Nat} {text r : Bytes} (h : ErrorReply code text r) : Payload r = text := by
  obtain ⟨ns, ds, h0, h1, rfl⟩ := h
  obtain rfl := numeral_unique h1 (decNat_numeral _)
  obtain rfl := numeral_unique h0 (decNat_numeral _)
  have e0 : decInt (code : Int) = decNat code := by
    unfold decInt
    rw [if_neg (by omega)]
    congr 1
  have hline := line3_isLine .error code text.length
  rw [e0] at hline
  have := payload_line (d := text) hline
  rw [show line3 b!"ERROR" (decNat code) (decNat text.length) ++ text =
    CmdId.error.name ++ b!" " ++ decNat code ++ b!" " ++ decNat text.length ++ 10 :: text by simp [line3, CmdId.name], this]

theorem dataReply_payload {c : CmdId} {d r : Bytes} (h : DataReply c.name d r) : Payload r = d := by
  obtain ⟨ds, h1, rfl⟩ := h
  obtain rfl := numeral_unique h1 (decNat_numeral _)
  have := payload_line (d := d) (line2_isLine c d.length)
  rw [show line2 c.name (decNat d.length) ++ d = c.name ++ b!" " ++ decNat d.length ++ 10 :: d by simp [line2], this]

theorem fit_error {code : Int} {t : Bytes} (h : t.length < 2 ^ 63) :
    Fit [line3 b!"ERROR" (decInt code) (decNat t.length) ++ t] := by
  intro r hr
  simp only [List.mem_singleton] at hr
  subst hr
  have := payload_line (d := t) (line3_isLine .error code t.length)
  rw [show line3 b!"ERROR" (decInt code) (decNat t.length) ++ t =
    CmdId.error.name ++ b!" " ++ decInt code ++ b!" " ++ decNat t.length ++ 10 :: t by simp [line3, CmdId.name], this]
  exact h

theorem fit_small {out : List Bytes} (h : ∀ r ∈ out, r.length < 2 ^ 63) : Fit out :=
  fun r hr => Nat.lt_of_le_of_lt (payload_length r) (h r hr)

theorem fit_yes : Fit [sendSimple .yes] := fit_small (by decide)

theorem isMoc_append (x : Bytes) {p : Bytes} (h : IsMoc p) : IsMoc (x ++ p) := by
  obtain ⟨base, ext, rfl, h⟩ := h
  exact ⟨x ++ base, ext, by simp, h⟩

theorem setupCheck_defined {conf : LveConf} (hpol : Polite conf) {w : World} (hw : Ample w) (st : LveSt) :
    ∃ r, setupLicensingCheckError conf w false st = .ok r ∧ Fit r.2.1 := by
  unfold setupLicensingCheckError
  rcases hs : setupLicensing conf st with ⟨st1, a⟩
  rcases a with _ | m
  · exact ⟨_, rfl, fit_small (by simp)⟩
  · rcases setup_cases hs with ⟨-, -, h⟩ | ⟨-, -, h, -⟩ | ⟨m', -, h, h1, -⟩
    · cases h
    · cases h
    · cases h1
      obtain ⟨t, rfl, ht⟩ := hpol _ _ h
      have : (cstr t).length < 2 ^ 63 := Nat.lt_of_le_of_lt (cstr_length_le t) ht
      simp only [errLicense, reply_error_ok hw (code := 7) (by decide) (by decide) this, Res.bind_ok]
      exact ⟨_, rfl, fit_error this⟩

theorem feature_defined {conf : LveConf} (hpol : Polite conf) {w : World} (hw : Ample w) (st : LveSt) (d : Bytes)
    (c : CmdId) : ∃ r, lveFeature conf w false st ⟨c, 0, d.length, some ⟨d.map some ++ [some 0]⟩⟩ = .ok r ∧
    Fit r.2.1 := by
  unfold lveFeature
  obtain ⟨⟨st1, out, ok⟩, h, hf0⟩ := setupCheck_defined hpol hw st
  simp only [h, Res.bind_ok]
  split
  · exact ⟨_, rfl, hf0⟩
  · have hf : featureArg ⟨c, 0, d.length, some ⟨d.map some ++ [some 0]⟩⟩ = .ok d := by
      simp only [featureArg]; exact readCells_map_some d _
    simp only [hf, Res.bind_ok, callManager]
    cases ha : conf.licenseManager (st1.calls ++ [LicCall.checkout d]) with
    | success => exact ⟨_, rfl, fit_yes⟩
    | failure m =>
      obtain ⟨t, rfl, ht⟩ := hpol _ _ ha
      have : (cstr t).length < 2 ^ 63 := Nat.lt_of_le_of_lt (cstr_length_le t) ht
      simp only [sendString, reply_length_ok hw this, Res.bind_ok, Bool.false_eq_true, if_false]
      exact ⟨_, rfl, fit_data this⟩

theorem returnFeature_defined {conf : LveConf} (hpol : Polite conf) {w : World} (hw : Ample w) (st : LveSt) (d : Bytes)
    (c : CmdId) : ∃ r, lveReturnFeature conf w st ⟨c, 0, d.length, some ⟨d.map some ++ [some 0]⟩⟩ = .ok r ∧
    Fit r.2 := by
  unfold lveReturnFeature
  obtain ⟨⟨st1, out, ok⟩, h, hf0⟩ := setupCheck_defined hpol hw st
  simp only [h, Res.bind_ok]
  split
  · exact ⟨_, rfl, hf0⟩
  · have hf : featureArg ⟨c, 0, d.length, some ⟨d.map some ++ [some 0]⟩⟩ = .ok d := by
      simp only [featureArg]; exact readCells_map_some d _
    simp only [hf, Res.bind_ok, callManager]
    cases ha : conf.licenseManager (st1.calls ++ [LicCall.checkin d]) with
    | success => exact ⟨_, rfl, fit_yes⟩
    | failure m =>
      obtain ⟨t, rfl, ht⟩ := hpol _ _ ha
      have : (cstr t).length < 2 ^ 63 := Nat.lt_of_le_of_lt (cstr_length_le t) ht
      simp only [errLicense, reply_error_ok hw (code := 7) (by decide) (by decide) this, Res.bind_ok]
      exact ⟨_, rfl, fit_error this⟩

theorem global_polite {conf : LveConf} (hpol : Polite conf) {st st' : LveSt} {m : Option Bytes}
    (h : globalLicense conf st = (st', .failure m)) : ∃ t, m = some t ∧ t.length < 2 ^ 63 := by
  rcases global_cases h with ⟨-, -, h⟩ | ⟨m', -, -, -, h, h1, -⟩ | ⟨g, cs, -, -, -, -, h⟩
  · cases h
  · cases h1; exact hpol _ _ h
  · exact hpol _ _ h.symm

theorem lib_defined {conf : LveConf} (hpol : Polite conf) {w : World} (hw : Ample w) (st : LveSt) (d : Bytes) :
    ∃ r, lveLibpath conf w false st ⟨.lib, 0, d.length, some ⟨d.map some ++ [some 0]⟩⟩ = .ok r ∧
      Fit r.2.1 := by
  unfold lveLibpath
  simp only [hw _, not_true_eq_false, if_false, readCells_map_some, Res.bind_ok]
  split
  · exact ⟨_, rfl, fit_small (by simp)⟩
  · split
    · rename_i hg
      obtain ⟨t, h, -⟩ := global_polite hpol hg
      cases h
    · rename_i st1 m hg
      obtain ⟨t, h, ht⟩ := global_polite hpol hg
      cases h
      have : (cstr (cstr m)).length < 2 ^ 63 :=
        Nat.lt_of_le_of_lt (Nat.le_trans (cstr_length_le _) (cstr_length_le m)) ht
      simp only [if_true, Bool.false_eq_true, if_false, errLicense,
        reply_error_ok hw (code := 7) (by decide) (by decide) this, Res.bind_ok]
      exact ⟨_, rfl, fit_error this⟩
    · exact ⟨_, rfl, fit_yes⟩

/-- LIB with tame data keeps the invariant. -/
theorem lib_tame {conf : LveConf} (hpol : Polite conf) {w : World} (hw : Ample w) {R : Bytes → Prop}
    {I : MaskTable → Prop} (hI : I []) {st st' : LveSt} {d : Bytes}
    {out : List Bytes} {ok : Bool} (hne : d ≠ []) (hl : R (trimLoop d d.length)) (hi : TameInv R I st)
    (h : lveLibpath conf w false st ⟨.lib, 0, d.length, some ⟨d.map some ++ [some 0]⟩⟩ = .ok (st', out, ok)) :
    TameInv R I { st' with proto := .license } := by
  have hgl : ∀ {s s' : LveSt} {a}, globalLicense conf s = (s', a) →
      s'.cr = s.cr ∧ s'.libpath = s.libpath ∧ s'.toolErrMsg = s.toolErrMsg := by
    intro s s' a hg
    rcases global_cases hg with ⟨-, rfl, -⟩ | ⟨m, -, -, -, -, -, rfl⟩ | ⟨g, cs, -, -, -, rfl, -⟩ <;> exact ⟨rfl, rfl, rfl⟩
  rcases lib_cases h with ⟨hn | hn, -⟩ | ⟨buf, data, hb, h0, hr, ⟨hna, -⟩ | ⟨st1, m, hg, -, -, rfl⟩ | ⟨st1, hg, -, hv⟩⟩
  · simp at hn
  · exact absurd (List.length_eq_zero_iff.1 hn) hne
  · exact absurd hw hna
  · simp only [Option.some.injEq] at hb; subst hb
    rw [readCells_map_some, Res.ok.injEq] at hr; subst hr
    obtain ⟨h1, h2, -⟩ := hgl hg
    obtain ⟨t, ht, htl⟩ := global_polite hpol hg
    cases ht
    refine ⟨fun m' hm => ?_, fun _ => ⟨_, [], h2, hl, h1, hI⟩⟩
    simp only [Option.some.injEq] at hm; subst hm
    exact Nat.lt_of_le_of_lt (cstr_length_le m) htl
  · simp only [Option.some.injEq] at hb; subst hb
    rw [readCells_map_some, Res.ok.injEq] at hr; subst hr
    obtain ⟨h1, h2, h3⟩ := hgl hg
    unfold validateDirectory at hv
    have hb : (b!"Library path does not exist.").length < 2 ^ 63 ∧ (b!"Library path is not a directory.").length < 2 ^ 63 := by
      decide
    split at hv <;> simp only [Prod.mk.injEq] at hv <;> obtain ⟨rfl, rfl⟩ := hv
    · refine ⟨fun m' hm => ?_, fun _ => ⟨_, [], h2, hl, h1, hI⟩⟩
      simp only [Option.some.injEq] at hm; subst hm; exact hb.1
    · refine ⟨fun m' hm => ?_, fun _ => ⟨_, [], h2, hl, h1, hI⟩⟩
      simp only [Option.some.injEq] at hm; subst hm; exact hb.2
    · refine ⟨fun m' hm => hi.1 m' ?_, fun _ => ⟨_, [], h2, hl, h1, hI⟩⟩
      simp only [h3] at hm; exact hm

theorem lastSlash_le (p : Bytes) : lastSlash p ≤ p.length := by have := lastSlash_lt p; omega

/-- Reading a file for which FILE may be asked is harmless. -/
def FileOk (conf : LveConf) (w : World) (R : Bytes → Prop) (I : MaskTable → Prop) (d : Bytes) : Prop :=
  ∀ st root, st.libpath = some root → R root → root.length + d.length + 100 < 2 ^ 63 ∧
    ∀ content, Holds w (cstr root ++ b!"/" ++ cstr d) content → content.length < 2 ^ 63 ∧
      ∀ t, IsMoc (cstr d) → I t → ∃ t' n o, crDecrypt (crEnvOf conf w st) t (cstr d) content = .ok (t', n, o) ∧
        o.length < 2 ^ 63 ∧ I t'

/-- FILE with a tame path. -/
theorem file_defined {conf : LveConf} {w : World} (hw : Ample w) {R : Bytes → Prop} {I : MaskTable → Prop}
    {st : LveSt} (hi : TameInv R I st) (he : ErrInv st) (hp : st.proto = .license)
    (hpi : PathInv st) {d : Bytes} (hd : FileOk conf w R I d) :
    ∃ st' out, lveFile conf w st ⟨.file, 0, d.length, some ⟨d.map some ++ [some 0]⟩⟩ = .ok (st', out) ∧
      Fit out ∧ TameInv R I { st' with proto := .license } := by
  obtain ⟨root, t, hl, hrl, hct, hIt⟩ := hi.2 hp
  obtain ⟨hlen, hfile⟩ := hd st root hl hrl
  have keep : TameInv R I { st with proto := .license } := by rw [stay hp]; exact hi
  cases ha : st.approved with
  | false =>
    obtain ⟨he1, c, hc, hc2, -⟩ := he
    rcases he1 with he1 | ⟨m, he1⟩
    · rw [ha] at he1; cases he1
    · have hcl := Nat.lt_of_le_of_lt (cstr_length_le m) (hi.1 m he1)
      rw [file_unapproved ha he1, hc, reply_error_ok hw (by unfold longMin; omega)
        (by unfold longMax; omega) hcl]
      exact ⟨_, _, rfl, fit_error hcl, keep⟩
  | true =>
    have h1 := cstr_length_le root
    have h2 := cstr_length_le d
    rw [file_forward hw ha hl (hpi _ hl) (by omega)]
    cases hr : readFile w (cstr root ++ b!"/" ++ cstr d) with
    | failed e =>
      have : ∃ m, readFile w (cstr root ++ b!"/" ++ cstr d) = .failed (some ⟨1, 1, some m⟩) ∧ m.length < defaultMsgSize := by
        suffices h : Unreadable w (cstr root ++ b!"/" ++ cstr d) by
          obtain ⟨m, h1, -⟩ := unreadable_read hw h
          refine ⟨_, h1, ?_⟩
          have := List.length_take_le 2047 m
          have : defaultMsgSize = 2048 := rfl
          omega
        unfold readFile at hr
        unfold Unreadable
        cases hfl : w.files (cstr root ++ b!"/" ++ cstr d) with
        | noOpen why => exact ⟨why, Or.inl rfl⟩
        | noStat why => exact ⟨why, Or.inr (Or.inl rfl)⟩
        | refused why => exact ⟨why, Or.inr (Or.inr (Or.inl rfl))⟩
        | stream size bytes io =>
          simp only [hfl, hw _, if_true] at hr
          cases io with
          | none => cases hr
          | some why =>
            simp only at hr
            split at hr
            · rename_i hlt
              exact ⟨why, Or.inr (Or.inr (Or.inr ⟨size, bytes, rfl, by simp at hlt; omega⟩))⟩
            · cases hr
      obtain ⟨m, h3, h4⟩ := this
      rw [hr, ReadFile.failed.injEq] at h3
      subst h3
      have hcl : (cstr m).length < 2 ^ 63 := by
        have := cstr_length_le m
        have : defaultMsgSize < 2 ^ 63 := by decide
        omega
      simp only [errorMessage, fileError, Res.bind_ok, errFileIo,
        reply_error_ok hw (code := 6) (by decide) (by decide) hcl]
      exact ⟨_, _, rfl, fit_error hcl, keep⟩
    | contents content =>
      obtain ⟨hsz, hdec⟩ := hfile _ (read_holds hr)
      by_cases hen : isEncryptedName (cstr d) = true
      · obtain ⟨t', n, o, h5, hol, hI'⟩ := hdec t ((isEncryptedName_iff _).1 hen) hIt
        have keep' : TameInv R I { st with cr := some t', proto := .license } :=
          ⟨hi.1, fun _ => ⟨root, t', hl, hrl, rfl, hI'⟩⟩
        · simp only [hen, if_true, lveDecrypt, hct, h5, Res.bind_ok]
          split
          · have hcl : (cstr (b!"Failed to decrypt file " ++ (cstr root ++ b!"/" ++ cstr d) ++
                b!", might be corrupted.")).length < 2 ^ 63 := by
              have h1 := cstr_length_le (b!"Failed to decrypt file " ++ (cstr root ++ b!"/" ++ cstr d) ++
                b!", might be corrupted.")
              simp only [List.length_append] at h1
              have h4 : (b!"Failed to decrypt file ").length = 23 := by decide
              have h5 : (b!", might be corrupted.").length = 21 := by decide
              have h6 : (b!"/").length = 1 := by decide
              omega
            simp only [fileError, errOther, reply_error_ok hw (code := 8) (by decide) (by decide) hcl, Res.bind_ok]
            exact ⟨_, _, rfl, fit_error hcl, keep'⟩
          · have hcl : (o.take n.toNat).length < 2 ^ 63 := Nat.lt_of_le_of_lt (List.length_take_le' _ _) hol
            simp only [reply_length_ok hw hcl, Res.bind_ok]
            exact ⟨_, _, rfl, fit_data (c := .fileCont) hcl, keep'⟩
      · simp only [hen, Bool.false_eq_true, if_false, reply_length_ok hw hsz, Res.bind_ok]
        exact ⟨_, _, rfl, fit_data (c := .fileCont) hsz, keep⟩

theorem step_tame {conf : LveConf} (hpol : Polite conf) {w : World} (hw : Ample w)
    {L F R : Bytes → Prop} {I : MaskTable → Prop} (hL : ∀ d, L d → d ≠ [] ∧ R (trimLoop d d.length))
    (hF : ∀ d, F d → FileOk conf w R I d) (hI : I []) {st : LveSt}
    (hb : st.errMsg.length < lveErrorSize) (hi : TameInv R I st) (he : ErrInv st) (hpi : PathInv st) {msg : Bytes}
    (ht : Tame L F msg) : ∃ st' out, lveStep conf w st msg = .ok (st', out) ∧ Fit out ∧ TameInv R I st' := by
  by_cases hr : Refusable st.proto msg
  · obtain ⟨st', r, text, h1, h3, h4, h2⟩ := c11_refused (conf := conf) hw hb hr
    refine ⟨st', _, h1, fun r' hr' => ?_, ?_⟩
    · simp only [List.mem_singleton] at hr'
      rw [hr', errorReply_payload h3]; omega
    unfold SameSession at h2
    have e1 := congrArg LveSt.toolErrMsg h2
    have e2 := congrArg LveSt.proto h2
    have e3 := congrArg LveSt.libpath h2
    have e4 := congrArg LveSt.cr h2
    simp only at e1 e2 e3 e4
    unfold TameInv
    rw [e1, e2, e3, e4]
    exact hi
  · rcases accepts_or_rejected msg with ⟨c, n, len, ha⟩ | ⟨g, hg, -⟩
    · have hal : Allowed st.proto c := by
        by_contra h; exact hr ((refusable_iff ha).2 h)
      generalize hps : st.proto = ps at hal
      cases hal with
      | version =>
        have hnl : ∀ s : LveSt, s.toolErrMsg = st.toolErrMsg → s.proto ≠ .license → TameInv R I s := by
          intro s h1 h2; exact ⟨fun m hm => hi.1 m (by rw [← h1]; exact hm), fun h => absurd h h2⟩
        by_cases hlow : n < 1
        · have hcl : (cstr (snprintf lveErrorSize b!"Minimum supported protocol version is 1")).length < 2 ^ 63 := by
            decide
          have hex : ∃ out, lveStep conf w st msg = .ok
              ({ st with errMsg := snprintf lveErrorSize b!"Minimum supported protocol version is 1" }, out) ∧ Fit out := by
            unfold lveStep
            simp only [hw _, not_true_eq_false, if_false, parse_of_accepts ha, Res.bind_ok, if_true, handleCommand,
              nextState_some (s := st.proto) (next := .tools) (c := .version) (by decide) (by rw [hps]; rfl),
              CmdId.form, dispatch, hps, hlow, errVersionTooLow,
              reply_error_ok hw (code := 2) (by decide) (by decide) hcl]
            exact ⟨_, rfl, fit_error hcl⟩
          obtain ⟨out, hex, hfit⟩ := hex
          exact ⟨_, out, hex, hfit, hnl _ rfl (by simp [hps])⟩
        · refine ⟨{ st with proto := .tools }, [sendNumber .version 1], ?_, fit_small (by decide), hnl _ rfl (by simp)⟩
          unfold lveStep
          simp only [hw _, not_true_eq_false, if_false, parse_of_accepts ha, Res.bind_ok, if_true, handleCommand,
            nextState_some (s := st.proto) (next := .tools) (c := .version) (by decide) (by rw [hps]; rfl),
            CmdId.form, dispatch, hps, hlow]
          rfl
      | tools =>
        refine ⟨{ st with proto := .lib }, [sendNumber .version 4], ?_, fit_small (by decide), hi.1, by simp⟩
        unfold lveStep
        simp only [hw _, not_true_eq_false, if_false, parse_of_accepts ha, Res.bind_ok, if_true, handleCommand,
          nextState_some (s := st.proto) (next := .lib) (c := .tools) (by decide) (by rw [hps]; rfl),
          CmdId.form, dispatch, hps]
        rfl
      | lib1 =>
        obtain ⟨d, hc, hd, -⟩ := ht _ _ _ ha (Or.inl rfl)
        obtain ⟨hne, hdl⟩ := hL _ (hd rfl)
        rw [step_forward (next := .license) hw rfl hc (by rw [hps]; rfl)]
        obtain ⟨⟨s, o, k⟩, hx, hfit⟩ := lib_defined hpol hw st d
        refine ⟨{ s with proto := .license }, o, ?_, hfit, lib_tame hpol hw hI hne hdl hi hx⟩
        simp [dispatch, hps, hx]
      | lib2 =>
        obtain ⟨d, hc, hd, -⟩ := ht _ _ _ ha (Or.inl rfl)
        obtain ⟨hne, hdl⟩ := hL _ (hd rfl)
        rw [step_forward (next := .license) hw rfl hc (by rw [hps]; rfl)]
        obtain ⟨⟨s, o, k⟩, hx, hfit⟩ := lib_defined hpol hw st d
        refine ⟨{ s with proto := .license }, o, ?_, hfit, lib_tame hpol hw hI hne hdl hi hx⟩
        simp [dispatch, hps, hx]
      | stage hst =>
        obtain ⟨d, hc, -, hd⟩ := ht _ _ _ ha (Or.inr hst)
        simp [licenseStage] at hst
        rcases hst with rfl | rfl | rfl | rfl | rfl
        · rw [step_forward (next := .license) hw rfl hc (by rw [hps]; rfl)]
          obtain ⟨⟨s, o, k⟩, hx, hfit⟩ := feature_defined hpol hw st d .feature
          obtain ⟨y, cs, rfl⟩ := feature_frame hx
          refine ⟨{ st with hasMgr := y, calls := st.calls ++ cs, proto := .license }, o, ?_, hfit, hi.1, fun _ => hi.2 hps⟩
          simp [dispatch, hps, hx]
        · rw [step_forward (next := .license) hw rfl hc (by rw [hps]; rfl)]
          obtain ⟨⟨s, o⟩, hx, hfit⟩ := returnFeature_defined hpol hw st d .returnFeature
          obtain ⟨y, cs, rfl⟩ := returnFeature_frame hx
          refine ⟨{ st with hasMgr := y, calls := st.calls ++ cs, proto := .license }, o, ?_, hfit, hi.1, fun _ => hi.2 hps⟩
          simp [dispatch, hps, hx]
        · rw [step_forward (next := .license) hw rfl hc (by rw [hps]; rfl)]
          refine ⟨st, [sendSimple .notSimple], ?_, fit_small (by decide), hi⟩
          simp [dispatch, hps, stay hps]
        · rw [step_forward (next := .license) hw rfl hc (by rw [hps]; rfl)]
          refine ⟨st, [sendSimple .notSimple], ?_, fit_small (by decide), hi⟩
          simp [dispatch, hps, stay hps]
        · rw [file_step hw hps hc]
          obtain ⟨s, o, hx, hfit, hy⟩ := file_defined hw hi he hps hpi (hF _ (hd rfl))
          exact ⟨_, o, by rw [hx]; rfl, hfit, hy⟩
    · exact absurd (Or.inl ⟨g, hg⟩) hr

theorem validate_defined (l : List Bytes) {k : Option Bytes} (hk : k ≠ none ∨ l = []) : ∃ b, validate l k = .ok b := by
  induction l with
  | nil => exact ⟨_, rfl⟩
  | cons t ts ih =>
    cases k with
    | none => simp at hk
    | some k =>
      simp only [validate]
      split
      · exact ⟨_, rfl⟩
      · exact ih (Or.inl (by simp))

theorem session_snoc {conf : LveConf} {k : Option Bytes} {turns : List (World × Bytes)} {st st' : LveSt}
    {replies : List (List Bytes)} {w : World} {msg : Bytes} {out : List Bytes} (h : Session conf k turns st replies)
    (h1 : lveStep conf w st msg = .ok (st', out)) : Session conf k (turns ++ [(w, msg)]) st' (replies ++ [out]) := by
  obtain ⟨st0, hs0, hs1⟩ := h
  refine ⟨st0, hs0, ?_⟩
  rw [run_append, hs1]
  simp [lveRun, h1]

theorem session_tame {conf : LveConf} (hpol : Polite conf) {k : Option Bytes}
    (hk : k ≠ none ∨ conf.trusted = []) {L F R : Bytes → Prop} {I : MaskTable → Prop}
    (hL : ∀ d, L d → d ≠ [] ∧ R (trimLoop d d.length)) (hI : I []) {turns : List (World × Bytes)}
    (ht : ∀ t ∈ turns, Ample t.1 ∧ (∀ d, F d → FileOk conf t.1 R I d) ∧ Tame L F t.2) :
    ∃ st replies, Session conf k turns st replies ∧ (∀ out ∈ replies, Fit out) ∧ TameInv R I st := by
  induction turns using List.reverseRecOn with
  | nil =>
    obtain ⟨v, hv⟩ := validate_defined conf.trusted hk
    have : ∃ st, lveStart conf k = .ok st := by
      unfold lveStart validatePubkey
      simp only [hv, Res.bind_ok]
      split <;> exact ⟨_, rfl⟩
    obtain ⟨st, hs⟩ := this
    refine ⟨st, [], ⟨st, hs, rfl⟩, by simp, ?_⟩
    rcases start_eq hs with rfl | rfl
    · exact ⟨by simp [LveSt.initial], by simp [LveSt.initial]⟩
    · refine ⟨?_, by simp [LveSt.initial]⟩
      intro m hm
      simp only [Option.some.injEq] at hm
      subst hm; decide
  | append_singleton turns t ih =>
    obtain ⟨st, replies, hs, hfit, hi⟩ := ih (fun t h => ht t (by simp [h]))
    obtain ⟨w, msg⟩ := t
    obtain ⟨hw, hfs, htm⟩ := ht (w, msg) (by simp)
    obtain ⟨st', out, h1, h3, h2⟩ := step_tame hpol hw hL hfs hI (c03_session_error_text_fits hs) hi
      (errInv_session hs) (pathInv_session hs) htm
    refine ⟨st', _, session_snoc hs h1, fun o ho => ?_, h2⟩
    rcases List.mem_append.1 ho with ho | ho
    · exact hfit o ho
    · simp only [List.mem_singleton] at ho; rw [ho]; exact h3

theorem trimLoop_isRootOf {d : Bytes} (h : d ≠ []) : IsRootOf d (trimLoop d d.length) := by
  have := trimLoop_root d d.length (by have := List.length_pos_iff.2 h; omega) (Nat.le_refl _)
  rwa [List.take_length] at this

/-- **C24, what holds** (full statement without `Tame`, the conditions on files, `Polite`, `Ample` and the
hypothesis on the certificate; false as shown above).  Whatever a client sends, malformed messages and commands out
of order included, as long as its well-formed commands carry the data they announce and its paths fit, the
executable handles every message without misbehaving, and no reply carries 2^63 bytes or more. -/
theorem c24_survives_partial {conf : LveConf} (hgood : GoodConf conf) (hpol : Polite conf) {k : Option Bytes}
    (hk : k ≠ none ∨ conf.trusted = []) {a b : Nat} (hab : a + b + 13 < 4096) {turns : List (World × Bytes)}
    (ht : ∀ t ∈ turns, Ample t.1 ∧ SmallFiles t.1 ∧ SaneFiles conf.keyLen t.1 ∧ Tame (ShortPath a) (PlainPath b) t.2) :
    ∃ st replies, Session conf k turns st replies ∧ ∀ out ∈ replies, ∀ r ∈ out, (Payload r).length < 2 ^ 63 := by
  suffices h : ∃ st replies, Session conf k turns st replies ∧ (∀ out ∈ replies, Fit out) ∧
      TameInv (fun r => r.length ≤ a) (fun _ => True) st by
    obtain ⟨st, r, h, hf, -⟩ := h; exact ⟨st, r, h, hf⟩
  refine session_tame hpol hk (L := ShortPath a) (F := PlainPath b) ?_ trivial ?_
  · rintro d ⟨hne, hd⟩
    obtain ⟨seps, h1, -⟩ := trimLoop_isRootOf hne
    have := congrArg List.length h1
    rw [List.length_append] at this
    exact ⟨hne, by change (trimLoop d d.length).length ≤ a; omega⟩
  · intro t htm
    obtain ⟨hw, hsm, hfs, htame⟩ := ht t htm
    refine ⟨hw, ?_, htame⟩
    rintro d ⟨hd, hm⟩ st root hl hrl
    have h1 := cstr_length_le root
    have h2 := cstr_length_le d
    refine ⟨by omega, fun content hh => ?_⟩
    have hsz := hsm _ _ hh
    refine ⟨by omega, fun tb hmoc _ => ?_⟩
    have hsafe := hfs _ _ hh (isMoc_append _ hmoc)
    have hls := lastSlash_le (cstr d)
    have he' : GoodEnv (crEnvOf conf t.1 st) := ⟨hgood.crypto, hgood.key, hgood.keyLen⟩
    obtain ⟨⟨t', n, o⟩, h5⟩ := c36_memory_safe_partial (crEnvOf conf t.1 st) he' tb (cstr d) content
      ⟨hm hmoc, by omega⟩ (by omega) (by
        intro q c hq hql hrd
        have hbase : (crEnvOf conf t.1 st).basedir = cstr root := by simp [crEnvOf, hl]
        rw [hbase, List.take_of_length_le (by simp; omega)] at hrd
        change t.1.read _ = _ at hrd
        unfold World.read at hrd
        split at hrd
        · rename_i b' hb'
          simp only [Option.some.injEq] at hrd
          subst hrd
          have hx := read_holds hb'
          have hmq : IsMoc q := by
            obtain ⟨x, rfl⟩ := hq
            exact isMoc_append x ⟨b!"package", b!"moc", rfl, by decide⟩
          obtain ⟨y1, y2⟩ := hfs _ _ hx (isMoc_append _ hmq)
          exact ⟨y1, y2, hsm _ _ hx⟩
        · cases hrd) ⟨hsafe.1, hsafe.2, hsz⟩
    exact ⟨t', n, o, h5, by
      have := (c31_decrypt_output _ he' _ _ _ _ _ _ h5).1
      omega, trivial⟩

/-- A path that does not ask for an encrypted file, or asks for one of the library. -/
def LibraryPath (jobs : List Job) (p : Bytes) : Prop :=
  p.length < 2 ^ 61 ∧ (IsMoc (cstr p) → ∃ j ∈ jobs, cstr p = j.path ++ b!"c")

/-- **C24, what holds for installed libraries.** Let a library be encrypted as in `c17_library`, with any lengths
of files.  If the client opens it by LIB and asks for no encrypted files but those of the library, the executable
handles every message without misbehaving, malformed messages and commands out of order included, and no reply
carries 2^63 bytes or more. -/
theorem c24_library_partial {conf : LveConf} (hgood : GoodConf conf) (hpol : Polite conf) {k : Option Bytes}
    (hk : k ≠ none ∨ conf.trusted = []) {jobs : List Job} {outs : List (Bytes × Bytes)}
    {base : Bytes} {read : Bytes → Option Bytes} (hP : Packaged conf.keyLen jobs)
    (henc : encryptAll ⟨conf.C, conf.key, conf.keyLen, base, read⟩ [] jobs = .ok (some outs))
    (hne : ∀ j ∈ jobs, j.isPackage → j.plain ≠ []) {root : Bytes} (hrl : root.length < 2 ^ 62)
    (hsz : SizesOk ⟨conf.C, conf.key, conf.keyLen, cstr root, read⟩ jobs) {turns : List (World × Bytes)}
    (ht : ∀ t ∈ turns, Ample t.1 ∧ SmallFiles t.1 ∧ Serves t.1 (cstr root) outs ∧
      Tame (fun d => IsRootOf d root) (LibraryPath jobs) t.2) :
    ∃ st replies, Session conf k turns st replies ∧ ∀ out ∈ replies, ∀ r ∈ out, (Payload r).length < 2 ^ 63 := by
  have hle : ∀ j ∈ jobs, (relPath j.dirs).length + 1 ≤ 4096 := by
    intro j hj
    have := (hsz j hj).1
    have := relPath_packagec_length j.dirs
    have := relPath_dirs_le j.dirs
    omega
  suffices h : ∃ st replies, Session conf k turns st replies ∧ (∀ out ∈ replies, Fit out) ∧
      TameInv (fun r => r = root) (DecInv jobs) st by
    obtain ⟨st, r, h, hf, -⟩ := h; exact ⟨st, r, h, hf⟩
  refine session_tame hpol hk (L := fun d => IsRootOf d root) (F := LibraryPath jobs) ?_ (decInv_nil jobs) ?_
  · intro d hd
    have hne : d ≠ [] := by
      rintro rfl
      obtain ⟨seps, h1, -, h2, -⟩ := hd
      simp at h1; exact h2 h1.1
    exact ⟨hne, isRootOf_unique (trimLoop_isRootOf hne) hd⟩
  · intro t htm
    obtain ⟨hw, hsm, hsv, htame⟩ := ht t htm
    refine ⟨hw, ?_, htame⟩
    rintro d ⟨hd, hm⟩ st r hl rfl
    refine ⟨by omega, fun content hh => ?_⟩
    have hcl := hsm _ _ hh
    refine ⟨by omega, fun tb hmoc hI => ?_⟩
    obtain ⟨j, hj, hpj⟩ := hm hmoc
    obtain ⟨he, hlib, hfiles⟩ := lib_env (st := st) hgood hP henc hle hw hl hsv
    obtain ⟨content', h1, h2⟩ := hfiles j hj
    rw [← hpj] at h1
    have hsame : content' = content := by
      have h3 := holds_read hw h1
      rw [holds_read hw hh, ReadFile.contents.injEq] at h3
      exact h3.symm
    subst hsame
    have hsz' : SizesOk (crEnvOf conf t.1 st) jobs := by
      intro j hj; have := hsz j hj; simpa [crEnvOf, hl] using this
    obtain ⟨t', o, h3, -, h5⟩ := decrypt_lib _ he hP.complete hlib hsz' hne j hj tb hI content' h2
    rw [← hpj] at h3
    exact ⟨t', _, o, h3, by
      have := (c31_decrypt_output _ he _ _ _ _ _ _ h3).1
      omega, h5⟩

/-- Is it a command that is not restricted by `Tame`? -/
def untamed (msg : Bytes) : Bool :=
  match parseCommand 100 msg [] with
  | .ok (g, cmd, _) => g ≠ .valid || !(cmd.id = .lib || cmd.id ∈ licenseStage)
  | .ub _ => false

theorem tame_other {L F : Bytes → Prop} {msg : Bytes} (h : untamed msg = true) : Tame L F msg := by
  intro c n len ha hc
  unfold untamed at h
  rw [parse_of_accepts ha] at h
  simp at h
  rcases hc with hc | hc
  · exact absurd hc h.1
  · exact absurd hc h.2

theorem tame_carries {L F : Bytes → Prop} {msg line d : Bytes} {c : CmdId} {n : Int} {e : Bytes}
    (h : parseCommand 100 msg [] = .ok (.valid, ⟨c, n, d.length, none⟩, e))
    (hl : ∀ b ∈ line, b ≠ 0 ∧ b ≠ 10) (hm : msg = line ++ b!"\n" ++ d)
    (h1 : c = .lib → L d) (h2 : c = .file → F d) : Tame L F msg := by
  intro c' n' len ha hc
  rw [parse_of_accepts ha] at h
  simp only [Res.ok.injEq, Prod.mk.injEq, Command.mk.injEq, true_and, and_true] at h
  obtain ⟨⟨rfl, rfl, rfl⟩, -⟩ := h
  exact ⟨d, ⟨line, d, n', hl, hm, ha, by simp, by omega⟩, h1, h2⟩

theorem roomy_holds {files : List (Bytes × Bytes)} {dirs : List Bytes} {p c : Bytes}
    (h : Holds (roomy files dirs) p c) : (p, c) ∈ files := by
  obtain ⟨size, bytes, io, h1, rfl, -⟩ := h
  simp only [roomy] at h1
  split at h1
  · rename_i f hf
    simp only [FileObs.stream.injEq] at h1
    obtain ⟨rfl, rfl, -⟩ := h1
    have hp : f.1 = p := by simpa using List.find?_some hf
    subst hp
    simpa using List.mem_of_find?_eq_some hf
  · cases h1

/-- Two encrypted files, one of them damaged, and a plain one. -/
def lib4 : World := roomy [(b!"/l/package.moc", (List.range 200).map UInt8.ofNat),
  (b!"/l/A/damaged.moc", List.replicate 30 7), (b!"/l/icon.png", b!"PNG")] [b!"/l"]

theorem lib4_sane : SmallFiles lib4 ∧ SaneFiles 32 lib4 := by
  have key : ∀ f ∈ [(b!"/l/package.moc", (List.range 200).map UInt8.ofNat),
      (b!"/l/A/damaged.moc", List.replicate 30 7), (b!"/l/icon.png", b!"PNG")], f.2.length < 2 ^ 31 ∧
      (isEncryptedName f.1 = true → 15 ≤ f.2.length ∧ (f.2.length < 64 ∨ 64 + 32 ≤ f.2.length)) := by
    decide +kernel
  exact ⟨fun p c h => (key _ (roomy_holds h)).1,
    fun p c h hi => (key _ (roomy_holds h)).2 ((isEncryptedName_iff _).2 hi)⟩

-- the hypotheses hold for garbage, a refused command and tame ones, with encrypted and plain files
example : ∃ st replies, Session (toyConf [b!"k"] none generous) (some b!"k") (inWorld lib4
    [b!"garbage\n", b!"VERSION 1\n", b!"LICENSE\n", b!"LIB 2\n/l", b!"FILE 13\nA/damaged.moc",
     b!"FILE 11\n../icon.png"]) st replies ∧
    ∀ out ∈ replies, ∀ r ∈ out, (Payload r).length < 2 ^ 63 := by
  refine c24_survives_partial ⟨toy_good, by decide, by decide⟩ (by intro c m h; cases h) (Or.inl (by simp))
    (a := 2000) (b := 2000) (by omega) ?_
  intro t ht
  simp only [inWorld, List.map_cons, List.map_nil, List.mem_cons, List.not_mem_nil, or_false] at ht
  rcases ht with rfl | rfl | rfl | rfl | rfl | rfl <;> refine ⟨roomy_ample _ _, lib4_sane.1, lib4_sane.2, ?_⟩
  · exact tame_other (by decide)
  · exact tame_other (by decide)
  · exact tame_other (by decide)
  · exact tame_carries (line := b!"LIB 2") (d := b!"/l") (by rfl) (by decide) (by decide)
      (fun _ => ⟨by decide, by decide⟩) (fun h => absurd h (by decide))
  · exact tame_carries (line := b!"FILE 13") (d := b!"A/damaged.moc") (by rfl) (by decide) (by decide)
      (fun h => absurd h (by decide)) (fun _ => ⟨by decide, fun _ => by decide⟩)
  · exact tame_carries (line := b!"FILE 11") (d := b!"../icon.png") (by rfl) (by decide) (by decide)
      (fun h => absurd h (by decide)) (fun _ => ⟨by decide, fun _ => by decide⟩)

-- the hypotheses of `c24_library_partial` hold for the library of C17, whose file x.moc has 64 bytes
example : ∃ st replies, Session (toyConf [b!"k"] none generous) (some b!"k") (inWorld lib2
    [b!"garbage\n", b!"VERSION 1\n", b!"LIB 3\n/l/", b!"FILE 7\nA/x.moc", b!"FILE 8\nicon.png"]) st replies ∧
    ∀ out ∈ replies, ∀ r ∈ out, (Payload r).length < 2 ^ 63 := by
  have hw : Ample lib2 := roomy_ample _ _
  have hsv : Serves lib2 (cstr b!"/l") (outsOf (toyEnv []) exLib) := by
    have : ∀ o ∈ outsOf (toyEnv []) exLib,
        lib2.files (cstr b!"/l" ++ b!"/" ++ o.1) = .stream o.2.length o.2 none := by decide +kernel
    intro o ho
    exact ⟨_, _, _, this o ho, by simp, Or.inl rfl⟩
  have hsm : SmallFiles lib2 := by
    have key : ∀ f ∈ ((outsOf (toyEnv []) exLib).map fun o => (b!"/l/" ++ o.1, o.2)) ++
      [(b!"/l/icon.png", b!"PNG")], f.2.length < 2 ^ 31 := by decide +kernel
    exact fun p c h => key _ (roomy_holds h)
  refine c24_library_partial (conf := toyConf [b!"k"] none generous) (jobs := exLib)
    (outs := outsOf (toyEnv []) exLib) (base := (toyEnv []).basedir) (read := (toyEnv []).read) (root := b!"/l")
    ⟨toy_good, by decide, by decide⟩ (by intro c m h; cases h) (Or.inl (by simp))
    exLib_packaged (by decide +kernel) ?_ (by decide) ?_ ?_
  · intro j hj; simp only [exLib, List.mem_cons, List.not_mem_nil, or_false] at hj
    rcases hj with rfl | rfl | rfl <;> simp
  · intro j hj; simp only [exLib, List.mem_cons, List.not_mem_nil, or_false] at hj
    rcases hj with rfl | rfl | rfl <;> decide
  intro t ht
  simp only [inWorld, List.map_cons, List.map_nil, List.mem_cons, List.not_mem_nil, or_false] at ht
  rcases ht with rfl | rfl | rfl | rfl | rfl <;> refine ⟨hw, hsm, hsv, ?_⟩
  · exact tame_other (by decide)
  · exact tame_other (by decide)
  · exact tame_carries (line := b!"LIB 3") (d := b!"/l/") (by rfl) (by decide) (by decide)
      (fun _ => ⟨b!"/", by decide, by simp [IsSep], by simp, by simp [IsSep]⟩) (fun h => absurd h (by decide))
  · refine tame_carries (line := b!"FILE 7") (d := b!"A/x.moc") (by rfl) (by decide) (by decide)
      (fun h => absurd h (by decide)) (fun _ => ⟨by decide, fun _ => ?_⟩)
    exact ⟨⟨[b!"A"], b!"x.mo", toyIv, toyMask 0, b!"model x end x;"⟩, by simp [exLib], by decide⟩
  · refine tame_carries (line := b!"FILE 8") (d := b!"icon.png") (by rfl) (by decide) (by decide)
      (fun h => absurd h (by decide)) (fun _ => ⟨by decide, fun h => ?_⟩)
    exact absurd ((isEncryptedName_iff _).2 h) (by decide)

end Semla.Props
