import Verif.Lemmas.LveFile
import Verif.Props.LveLicense

/-!
# Properties of sessions with the vendor executable: files

C17, C18, C23, C24.
-/

set_option linter.unusedSimpArgs false

namespace Semla.Props

open Semla Semla.Spec

/-! ## C17 -/

theorem holds_read {w : World} (hw : Ample w) {path content : Bytes} (h : Holds w path content) :
    readFile w path = .contents content := by
  obtain ⟨size, bytes, io, h1, rfl, h2⟩ := h
  unfold readFile
  rw [h1]
  simp only [hw _, if_true]
  cases io with
  | none => rfl
  | some why =>
    have h3 : size ≤ bytes.length := by simpa using h2
    have : ¬ (bytes.take size).length < size := by simp; omega
    simp only [this, if_false]

theorem unreadable_read {w : World} (hw : Ample w) {path : Bytes} (h : Unreadable w path) :
    ∃ m, readFile w path = .failed (some ⟨1, 1, some (m.take 2047)⟩) ∧ ReadTrouble w path m := by
  have hn : ∀ t, errorNew w.malloc 1 1 t = some ⟨1, 1, some (snprintf defaultMsgSize t)⟩ := by
    intro t; simp [errorNew, hw _]
  obtain ⟨why, h | h | h | ⟨size, bytes, h, hlt⟩⟩ := h
  · exact ⟨_, by simp only [readFile, h, hn]; rfl, .noOpen h⟩
  · exact ⟨_, by simp only [readFile, h, hn]; rfl, .noSize h⟩
  · exact ⟨_, by simp only [readFile, h, hn]; rfl, .refused h⟩
  · have : (bytes.take size).length < size := by simp; omega
    exact ⟨_, by simp only [readFile, h, hw _, if_true, this, hn]; rfl, .noRead h hlt⟩

theorem session_license {conf : LveConf} {k : Option Bytes} {turns : List (World × Bytes)} {st : LveSt}
    {replies : List (List Bytes)} (h : Session conf k turns st replies) {root : Bytes}
    (hl : st.libpath = some root) : st.proto = .license := by
  by_contra hne
  have := ((sessMgr_session h).2 hne).2.2
  rw [hl] at this; cases this

theorem file_step {conf : LveConf} {w : World} (hw : Ample w) {st : LveSt} {msg p : Bytes}
    (hp : st.proto = .license) (hc : Carries msg .file p) :
    lveStep conf w st msg = (do
      let (s, out) ← lveFile conf w st ⟨.file, 0, p.length, some ⟨p.map some ++ [some 0]⟩⟩
      .ok ({ s with proto := .license }, out)) := by
  rw [step_forward (next := .license) hw rfl hc (by rw [hp]; rfl)]
  unfold dispatch
  rw [hp]
  simp

theorem stay {st : LveSt} (hp : st.proto = .license) : { st with proto := .license } = st := by
  cases st; simp only at hp; subst hp; rfl

theorem dataReply_mk {name d : Bytes} : DataReply name d (line2 name (decNat d.length) ++ d) :=
  ⟨decNat d.length, decNat_numeral _, rfl⟩

/-- **C17, plain files.** In any session with an approved tool and library root `root`, FILE p, where p does
not have the extension .moc, is answered by exactly the contents of the file at root/p, and changes nothing. -/
theorem c17_plain {conf : LveConf} {k : Option Bytes} {turns : List (World × Bytes)} {st : LveSt}
    {replies : List (List Bytes)} (hses : Session conf k turns st replies) (ha : st.approved = true) {root : Bytes}
    (hl : st.libpath = some root) {w : World} (hw : Ample w) {msg p content : Bytes} (hc : Carries msg .file p)
    (hsz : root.length + p.length + 2 < 2 ^ 64) (hn : ¬ IsMoc (cstr p))
    (hf : Holds w (cstr root ++ b!"/" ++ cstr p) content) (hcl : content.length < 2 ^ 63) :
    ∃ r, lveStep conf w st msg = .ok (st, [r]) ∧ DataReply b!"FILECONT" content r := by
  have hp := session_license hses hl
  have hn' : isEncryptedName (cstr p) = false := by
    rw [← isEncryptedName_iff] at hn; simpa using hn
  rw [file_step hw hp hc, file_forward hw ha hl (pathInv_session hses _ hl) hsz, holds_read hw hf]
  simp only [hn', Bool.false_eq_true, if_false, reply_length_ok hw hcl, Res.bind_ok, stay hp]
  exact ⟨_, rfl, dataReply_mk⟩

/-- **C17, unreadable files.** Whatever its name, a file that cannot be read is reported by `ERROR 6` with the
path and the reason (2047 bytes of text at most). -/
theorem c17_unreadable {conf : LveConf} {k : Option Bytes} {turns : List (World × Bytes)} {st : LveSt}
    {replies : List (List Bytes)} (hses : Session conf k turns st replies) (ha : st.approved = true) {root : Bytes}
    (hl : st.libpath = some root) {w : World} (hw : Ample w) {msg p : Bytes} (hc : Carries msg .file p)
    (hsz : root.length + p.length + 2 < 2 ^ 64)
    (hf : Unreadable w (cstr root ++ b!"/" ++ cstr p)) :
    ∃ r text, lveStep conf w st msg = .ok (st, [r]) ∧ ErrorReply 6 (cstr (text.take 2047)) r ∧
      ReadTrouble w (cstr root ++ b!"/" ++ cstr p) text := by
  have hp := session_license hses hl
  obtain ⟨m, hm, hml⟩ := unreadable_read hw hf
  have hcl : (cstr (m.take 2047)).length < 2 ^ 63 := by
    have := cstr_length_le (m.take 2047)
    have := List.length_take_le 2047 m
    omega
  rw [file_step hw hp hc, file_forward hw ha hl (pathInv_session hses _ hl) hsz, hm]
  simp only [errorMessage, fileError, Res.bind_ok, errFileIo,
    reply_error_ok hw (code := 6) (by decide) (by decide) hcl, stay hp]
  exact ⟨_, m, rfl, ⟨_, _, decNat_numeral 6, decNat_numeral _, rfl⟩, hml⟩

/-- **C17, encrypted files.** If p has the extension .moc, the answer is what decryption makes of the file:
the decrypted bytes, or `ERROR 8` naming the file if decryption fails.  (What decryption makes of the files of a library is
`c17_library`; of tampered ones, C32.) -/
theorem c17_encrypted {conf : LveConf} {k : Option Bytes} {turns : List (World × Bytes)} {st : LveSt}
    {replies : List (List Bytes)} (hses : Session conf k turns st replies) (ha : st.approved = true) {root : Bytes}
    (hl : st.libpath = some root) {w : World} (hw : Ample w) {msg p content : Bytes} (hc : Carries msg .file p)
    (hsz : root.length + p.length + 100 < 2 ^ 63) (hn : IsMoc (cstr p))
    (hf : Holds w (cstr root ++ b!"/" ++ cstr p) content) {t t' : MaskTable} (hcr : st.cr = some t) {n : Int}
    {o : Bytes} (hol : o.length < 2 ^ 63) (hd : crDecrypt (crEnvOf conf w st) t (cstr p) content = .ok (t', n, o)) :
    ∃ r, lveStep conf w st msg = .ok ({ st with cr := some t' }, [r]) ∧
      (0 ≤ n → DataReply b!"FILECONT" (o.take n.toNat) r) ∧ (n < 0 → ErrorReply 8 (b!"Failed to decrypt file " ++ (cstr root ++ b!"/" ++ cstr p) ++
        b!", might be corrupted.") r) := by
  have hp := session_license hses hl
  have hcs : cstr (b!"Failed to decrypt file " ++ (cstr root ++ b!"/" ++ cstr p) ++ b!", might be corrupted.") =
      b!"Failed to decrypt file " ++ (cstr root ++ b!"/" ++ cstr p) ++ b!", might be corrupted." := by
    have key : ∀ s : Bytes, ∀ b ∈ cstr s, b ≠ 0 := fun s b hb => by
      have := List.mem_takeWhile_imp hb
      simpa using this
    refine cstr_of_noNul fun b hb => ?_
    simp only [List.mem_append] at hb
    rcases hb with (hb | (hb | hb) | hb) | hb
    · revert b; decide
    · exact key _ b hb
    · revert b; decide
    · exact key _ b hb
    · revert b; decide
  have hn' : isEncryptedName (cstr p) = true := (isEncryptedName_iff _).2 hn
  rw [file_step hw hp hc, file_forward hw ha hl (pathInv_session hses _ hl) (by omega), holds_read hw hf]
  simp only [hn', if_true, lveDecrypt, hcr, hd, Res.bind_ok]
  have hst : ({ st with proto := .license, cr := some t' } : LveSt) = { st with cr := some t' } := by
    cases st; simp only at hp; subst hp; rfl
  by_cases hneg : n < 0
  · have hcl : (cstr (b!"Failed to decrypt file " ++ (cstr root ++ b!"/" ++ cstr p) ++
        b!", might be corrupted.")).length < 2 ^ 63 := by
      have h1 := cstr_length_le (b!"Failed to decrypt file " ++ (cstr root ++ b!"/" ++ cstr p) ++
        b!", might be corrupted.")
      have h2 := cstr_length_le root
      have h3 := cstr_length_le p
      simp only [List.length_append] at h1
      have h4 : (b!"Failed to decrypt file ").length = 23 := by decide
      have h5 : (b!", might be corrupted.").length = 21 := by decide
      have h6 : (b!"/").length = 1 := by decide
      omega
    simp only [hneg, if_true, fileError, errOther, reply_error_ok hw (code := 8) (by decide) (by decide) hcl,
      Res.bind_ok, hst]
    exact ⟨_, rfl, fun h => by omega, fun _ => ⟨_, _, decNat_numeral 8, decNat_numeral _, by rw [hcs]; rfl⟩⟩
  · have hcl : (o.take n.toNat).length < 2 ^ 63 := Nat.lt_of_le_of_lt (List.length_take_le' _ _) hol
    simp only [hneg, if_false, reply_length_ok hw hcl, Res.bind_ok, hst]
    exact ⟨_, rfl, fun _ => dataReply_mk, fun h => h.elim⟩

/-- What the build must provide for decryption: good primitives and a 32-byte key, of which at most 32 bytes
are declared. -/
structure GoodConf (conf : LveConf) : Prop where
  crypto : conf.C.Good
  key : conf.key.length = 32
  keyLen : conf.keyLen ≤ 32

/-- A message such as an honest tool sends: a FILE request carries its path, and if it asks for an encrypted
file, this is one of the library. -/
def Honest (jobs : List Job) (msg : Bytes) : Prop :=
  ∀ n len, Accepts msg .file n len → ∃ p, Carries msg .file p ∧ p.length < 2 ^ 62 ∧
    (IsMoc (cstr p) → ∃ j ∈ jobs, cstr p = j.path ++ b!"c")

/-- Nothing but masks of the library is in the cache, and there is one once there is a root. -/
def CacheInv (jobs : List Job) (st : LveSt) : Prop :=
  (∀ t, st.cr = some t → DecInv jobs t) ∧ (st.libpath ≠ none → st.cr ≠ none)

theorem cache_lib {conf : LveConf} {w : World} (hw : Ample w) {jobs : List Job} {st st' : LveSt} {cmd : Command}
    {out : List Bytes} {ok : Bool} (h : lveLibpath conf w false st cmd = .ok (st', out, ok))
    (hi : CacheInv jobs st) : CacheInv jobs st' := by
  have hgl : ∀ {s s' : LveSt} {a}, globalLicense conf s = (s', a) → s.cr = some [] → s'.cr = some [] := by
    intro s s' a hg hc
    rcases global_cases hg with ⟨-, rfl, -⟩ | ⟨m, -, -, -, -, -, rfl⟩ | ⟨g, cs, -, -, -, rfl, -⟩ <;> exact hc
  have key : ∀ {s : LveSt}, s.cr = some [] → CacheInv jobs s := by
    intro s hs
    refine ⟨fun t ht => ?_, fun _ => by simp [hs]⟩
    rw [hs] at ht; simp only [Option.some.injEq] at ht; subst ht; exact decInv_nil jobs
  rcases lib_cases h with ⟨-, -, -, rfl⟩ | ⟨buf, data, -, -, -, ⟨hna, -, -, -⟩ | ⟨st1, m, hg, -, -, rfl⟩ |
    ⟨st1, hg, -, hv⟩⟩
  · exact hi
  · exact absurd hw hna
  · have h1 := hgl (s := withRoot st _) hg rfl
    exact key (s := { st1 with toolErrMsg := some (cstr m), toolErrType := 7, approved := false }) h1
  · have h1 := hgl (s := withRoot st _) hg rfl
    rcases validateDirectory_cases hv with ⟨-, rfl, -⟩ | ⟨m, -, -, rfl⟩
    · exact key h1
    · exact key (s := { st1 with toolErrType := 4, toolErrMsg := some m }) h1

/-- The environment of decryption in a session has the files of the library. -/
theorem lib_env {conf : LveConf} (hgood : GoodConf conf) {jobs : List Job} {outs : List (Bytes × Bytes)}
    {base : Bytes} {read : Bytes → Option Bytes} (hP : Packaged conf.keyLen jobs)
    (henc : encryptAll ⟨conf.C, conf.key, conf.keyLen, base, read⟩ [] jobs = .ok (some outs))
    (hle : ∀ j ∈ jobs, (relPath j.dirs).length + 1 ≤ 4096)
    {w : World} (hw : Ample w) {st : LveSt} {root : Bytes} (hl : st.libpath = some root)
    (hsv : Serves w (cstr root) outs) :
    GoodEnv (crEnvOf conf w st) ∧ LibRead (crEnvOf conf w st) jobs ∧
    ∀ j ∈ jobs, ∃ content, Holds w (cstr root ++ b!"/" ++ (j.path ++ b!"c")) content ∧
      EncOf (crEnvOf conf w st) jobs j content := by
  have he : GoodEnv ⟨conf.C, conf.key, conf.keyLen, base, read⟩ := ⟨hgood.crypto, hgood.key, hgood.keyLen⟩
  obtain ⟨outs', h1, h2⟩ := encryptAll_spec _ he hP hle jobs [] rfl [] encInv_nil
  rw [henc] at h1
  simp only [Res.ok.injEq, Option.some.injEq] at h1
  subst h1
  have hf : ∀ j ∈ jobs, ∃ content, Holds w (cstr root ++ b!"/" ++ (j.path ++ b!"c")) content ∧
      EncOf (crEnvOf conf w st) jobs j content := by
    intro j hj
    obtain ⟨o, ho, hp, hq⟩ := forall₂_mem h2 j hj
    exact ⟨o.2, by rw [← hp]; exact hsv o ho, hq⟩
  refine ⟨⟨hgood.crypto, hgood.key, hgood.keyLen⟩, ?_, hf⟩
  intro j hj
  obtain ⟨content, h3, h4⟩ := hf j hj
  refine ⟨content, ?_, h4⟩
  have hb : (crEnvOf conf w st).basedir = cstr root := by simp [crEnvOf, hl]
  rw [hb]
  change w.read _ = _
  unfold World.read
  rw [holds_read hw h3]

theorem cache_step {conf : LveConf} (hgood : GoodConf conf) {jobs : List Job} {outs : List (Bytes × Bytes)}
    {base : Bytes} {read : Bytes → Option Bytes} (hP : Packaged conf.keyLen jobs)
    (henc : encryptAll ⟨conf.C, conf.key, conf.keyLen, base, read⟩ [] jobs = .ok (some outs))
    (hne : ∀ j ∈ jobs, j.isPackage → j.plain ≠ []) {root : Bytes} (hrl : root.length < 2 ^ 62)
    (hsz : SizesOk ⟨conf.C, conf.key, conf.keyLen, cstr root, read⟩ jobs)
    (hle : ∀ j ∈ jobs, (relPath j.dirs).length + 1 ≤ 4096)
    {w : World} (hw : Ample w) (hsv : Serves w (cstr root) outs) {st st' : LveSt} {msg : Bytes} {out : List Bytes}
    (hh : Honest jobs msg) (hr : st.proto = .license → st.libpath = none ∨ st.libpath = some root)
    (hpi : PathInv st) (hi : CacheInv jobs st)
    (h : lveStep conf w st msg = .ok (st', out)) : CacheInv jobs st' := by
  cases step_effect h with
  | refused => exact hi
  | low => exact hi
  | version => exact hi
  | tools => exact hi
  | lib _ _ _ h => exact (cache_lib hw h hi : CacheInv jobs _)
  | feature _ _ _ h => obtain ⟨b, cs, rfl⟩ := feature_frame h; exact hi
  | returnFeature _ _ _ h => obtain ⟨b, cs, rfl⟩ := returnFeature_frame h; exact hi
  | license => exact hi
  | file hp hb hx hf =>
    obtain ⟨p, hc, hpl, hm⟩ := hh _ _ hb
    cases ha : st.approved with
    | false =>
      rcases file_cases hf with ⟨-, rfl, -⟩ | ⟨h1, -, -⟩
      · exact hi
      · rw [ha] at h1; cases h1
    | true =>
      rcases hr hp with hl | hl
      · -- without a root there is no answer
        rw [file_step hw hp hc] at h
        simp [lveFile, ha, hw _, hl] at h
      · rw [file_step hw hp hc, file_forward hw ha hl (hpi _ hl) (by omega)] at h
        cases hrf : readFile w (cstr root ++ b!"/" ++ cstr p) with
        | failed e =>
          rw [hrf] at h
          simp only [Res.bind_eq_ok] at h
          obtain ⟨⟨s, o⟩, ⟨m, -, o', -, h1⟩, h2⟩ := h
          simp only [Res.ok.injEq, Prod.mk.injEq] at h1 h2
          obtain ⟨rfl, rfl⟩ := h1
          have := congrArg LveSt.cr h2.1
          have h3 := congrArg LveSt.libpath h2.1
          simp only at this h3
          exact ⟨fun t ht => hi.1 t (by rw [this]; exact ht), fun hn => by rw [← this]; exact hi.2 (by rw [h3]; exact hn)⟩
        | contents content =>
          rw [hrf] at h
          simp only at h
          by_cases hen : isEncryptedName (cstr p) = true
          · obtain ⟨j, hj, hpj⟩ := hm ((isEncryptedName_iff _).1 hen)
            obtain ⟨he, hlib, hfiles⟩ := lib_env hgood hP henc hle hw hl hsv
            obtain ⟨content', h1, h2⟩ := hfiles j hj
            rw [← hpj, ] at h1
            rw [holds_read hw h1, ReadFile.contents.injEq] at hrf
            subst hrf
            cases hcr : st.cr with
            | none => exact absurd hcr (hi.2 (by simp [hl]))
            | some t =>
              have hsz' : SizesOk (crEnvOf conf w st) jobs := by
                intro j hj; have := hsz j hj; simpa [crEnvOf, hl] using this
              obtain ⟨t', o, h3, -, h5⟩ := decrypt_lib _ he hP.complete hlib hsz' hne j hj t (hi.1 t hcr) content' h2
              rw [← hpj] at h3
              simp only [hen, if_true, lveDecrypt, hcr, h3, Res.bind_ok] at h
              rw [if_neg (by omega)] at h
              simp only [Res.bind_eq_ok] at h
              obtain ⟨⟨s, o⟩, ⟨r, -, h6⟩, h7⟩ := h
              simp only [Res.ok.injEq, Prod.mk.injEq] at h6 h7
              obtain ⟨rfl, rfl⟩ := h6
              have := congrArg LveSt.cr h7.1
              simp only at this
              refine ⟨fun t2 ht => ?_, fun _ => ?_⟩
              · rw [← this] at ht; simp only [Option.some.injEq] at ht; subst ht; exact h5
              · rw [← this]; simp
          · simp only [hen, if_false, Bool.false_eq_true, Res.bind_eq_ok] at h
            obtain ⟨⟨s, o⟩, ⟨r, -, h6⟩, h7⟩ := h
            simp only [Res.ok.injEq, Prod.mk.injEq] at h6 h7
            obtain ⟨rfl, rfl⟩ := h6
            have := congrArg LveSt.cr h7.1
            have h3 := congrArg LveSt.libpath h7.1
            simp only at this h3
            exact ⟨fun t ht => hi.1 t (by rw [this]; exact ht), fun hn => by rw [← this]; exact hi.2 (by rw [h3]; exact hn)⟩

theorem cache_session {conf : LveConf} (hgood : GoodConf conf) {jobs : List Job} {outs : List (Bytes × Bytes)}
    {base : Bytes} {read : Bytes → Option Bytes} (hP : Packaged conf.keyLen jobs)
    (henc : encryptAll ⟨conf.C, conf.key, conf.keyLen, base, read⟩ [] jobs = .ok (some outs))
    (hne : ∀ j ∈ jobs, j.isPackage → j.plain ≠ []) {root : Bytes} (hrl : root.length < 2 ^ 62)
    (hsz : SizesOk ⟨conf.C, conf.key, conf.keyLen, cstr root, read⟩ jobs)
    (hle : ∀ j ∈ jobs, (relPath j.dirs).length + 1 ≤ 4096)
    {k : Option Bytes} {turns : List (World × Bytes)} {st : LveSt} {replies : List (List Bytes)}
    (hses : Session conf k turns st replies) (hl : st.libpath = some root)
    (ht : ∀ t ∈ turns, Ample t.1 ∧ Serves t.1 (cstr root) outs ∧ Honest jobs t.2) : CacheInv jobs st := by
  obtain ⟨st0, h1, h2⟩ := hses
  have key : ∀ (turns : List (World × Bytes)) (s : LveSt) (rs : List (List Bytes)), SessMgr conf s → PathInv s →
      CacheInv jobs s → (∀ t ∈ turns, Ample t.1 ∧ Serves t.1 (cstr root) outs ∧ Honest jobs t.2) →
      lveRun conf s turns = .ok (st, rs) → CacheInv jobs st := by
    intro turns
    induction turns with
    | nil =>
      intro s rs _ _ hi _ hrun
      simp only [lveRun, Res.ok.injEq, Prod.mk.injEq] at hrun
      rw [← hrun.1]; exact hi
    | cons t ts ih =>
      intro s rs hsm hpi hi ht hrun
      obtain ⟨w, msg⟩ := t
      obtain ⟨s1, out, outs', h3, h4, -⟩ := run_cons hrun
      have hef := step_effect h3
      obtain ⟨hw, hsv, hh⟩ := ht (w, msg) (by simp)
      refine ih s1 outs' (sessMgr_step hsm hef) (pathInv_step hpi hef) ?_ (fun t h => ht t (by simp [h])) h4
      refine cache_step hgood hP henc hne hrl hsz hle hw hsv hh ?_ hpi hi h3
      intro hp
      have := (c12_root_fixed hp hrun).1
      rw [← this, hl]; exact Or.inr rfl
  refine key turns st0 replies ?_ ?_ ?_ ht h2
  · rcases start_eq h1 with rfl | rfl <;> exact ⟨mgrInv_nil _ _, fun _ => ⟨rfl, rfl, rfl⟩⟩
  · rcases start_eq h1 with rfl | rfl <;> intro p hp <;> simp [LveSt.initial] at hp
  · rcases start_eq h1 with rfl | rfl <;> simp [CacheInv, LveSt.initial]

theorem relPath_no_nul {ns : List Bytes} (h : ∀ n ∈ ns, IsName n) : ∀ b ∈ relPath ns, b ≠ 0 := by
  induction ns with
  | nil => simp [relPath]
  | cons n ns ih =>
    cases ns with
    | nil => intro b hb; exact ((h n (by simp)).2 b hb).2.2
    | cons m ms =>
      intro b hb
      simp only [relPath, List.mem_append] at hb
      rcases hb with (hb | hb) | hb
      · exact ((h n (by simp)).2 b hb).2.2
      · simp at hb; subst hb; decide
      · exact ih (fun n hn => h n (by simp [hn])) b hb

theorem job_path_no_nul {keyLen : Nat} {jobs : List Job} (hP : Packaged keyLen jobs) {j : Job} (hj : j ∈ jobs) :
    ∀ b ∈ j.path ++ b!"c", b ≠ 0 := by
  obtain ⟨h1, -, h2⟩ := hP.names j hj
  intro b hb
  rcases List.mem_append.1 hb with hb | hb
  · refine relPath_no_nul (ns := j.dirs ++ [j.name]) ?_ b hb
    intro n hn
    rcases List.mem_append.1 hn with hn | hn
    · exact (h2 n hn).1
    · simp at hn; subst hn; exact h1
  · simp at hb; subst hb; decide

/-- **C17, files of an encrypted library.** Let a library (package files first and not empty, every directory
with one) be encrypted, and let the encrypted files be found below the root of a session with an approved tool,
throughout the session.  Then after any history of messages in which encrypted files were only asked for by
paths of the library, a FILE request for the encrypted form of a source file is answered by FILECONT with
exactly the source text. -/
theorem c17_library {conf : LveConf} (hgood : GoodConf conf) {jobs : List Job} {outs : List (Bytes × Bytes)}
    {base : Bytes} {read : Bytes → Option Bytes} (hP : Packaged conf.keyLen jobs)
    (henc : encryptAll ⟨conf.C, conf.key, conf.keyLen, base, read⟩ [] jobs = .ok (some outs))
    (hne : ∀ j ∈ jobs, j.isPackage → j.plain ≠ []) {root : Bytes} (hrl : root.length < 2 ^ 62)
    (hsz : SizesOk ⟨conf.C, conf.key, conf.keyLen, cstr root, read⟩ jobs)
    {k : Option Bytes} {turns : List (World × Bytes)} {st : LveSt} {replies : List (List Bytes)}
    (hses : Session conf k turns st replies) (ha : st.approved = true) (hl : st.libpath = some root)
    (ht : ∀ t ∈ turns, Ample t.1 ∧ Serves t.1 (cstr root) outs ∧ Honest jobs t.2)
    {w : World} (hw : Ample w) (hsv : Serves w (cstr root) outs) {j : Job} (hj : j ∈ jobs)
    (hmo : IsMoc (j.path ++ b!"c")) {msg : Bytes} (hc : Carries msg .file (j.path ++ b!"c"))
    (hpl : j.path.length < 2 ^ 61) :
    ∃ t r, lveStep conf w st msg = .ok ({ st with cr := some t }, [r]) ∧ DataReply b!"FILECONT" j.plain r := by
  have hle : ∀ j ∈ jobs, (relPath j.dirs).length + 1 ≤ 4096 := by
    intro j hj
    have := (hsz j hj).1
    have := relPath_packagec_length j.dirs
    have := relPath_dirs_le j.dirs
    omega
  have hci := cache_session hgood hP henc hne hrl hsz hle hses hl ht
  obtain ⟨he, hlib, hfiles⟩ := lib_env (st := st) hgood hP henc hle hw hl hsv
  obtain ⟨content, h1, h2⟩ := hfiles j hj
  have hnn : ∀ b ∈ j.path ++ b!"c", b ≠ 0 := job_path_no_nul hP hj
  have hcs : cstr (j.path ++ b!"c") = j.path ++ b!"c" := cstr_of_noNul hnn
  cases hcr : st.cr with
  | none => exact absurd hcr (hci.2 (by simp [hl]))
  | some t =>
    have hsz' : SizesOk (crEnvOf conf w st) jobs := by
      intro j hj; have := hsz j hj; simpa [crEnvOf, hl] using this
    obtain ⟨t', o, h3, h4, h5⟩ := decrypt_lib _ he hP.complete hlib hsz' hne j hj t (hci.1 t hcr) content h2
    have hol : o.length < 2 ^ 63 := by
      have h6 := (c31_decrypt_output _ he _ _ _ _ _ _ h3).1
      have := encOf_length he hP.complete hj (hsz' j hj).2 h2
      have := (hsz' j hj).2
      omega
    obtain ⟨r, h6, h7, -⟩ := c17_encrypted hses ha hl hw (p := j.path ++ b!"c") hc
      (by simp; omega) (by rw [hcs]; exact hmo) (by rw [hcs]; exact h1) hcr hol (by rw [hcs]; exact h3)
    refine ⟨_, r, h6, ?_⟩
    have := h7 (by omega)
    rwa [Int.toNat_natCast, h4] at this

/-- The library `exLib` of C33, encrypted and installed at /l, with a plain file beside it. -/
def lib2 : World := roomy (((outsOf (toyEnv []) exLib).map fun o => (b!"/l/" ++ o.1, o.2)) ++
  [(b!"/l/icon.png", b!"PNG")]) [b!"/l"]

-- plain and encrypted files, and a missing one
example : repliesOf (session (toyConf [b!"k"] none generous) (some b!"k") (inWorld lib2
    [b!"VERSION 1\n", b!"LIB 2\n/l", b!"FILE 8\nicon.png", b!"FILE 7\nA/x.moc", b!"FILE 11\npackage.moc",
     b!"FILE 4\nb.mo"])) =
    some [[b!"VERSION 1\n"], [b!"YES\n"], [b!"FILECONT 3\nPNG"], [b!"FILECONT 14\nmodel x end x;"],
      [b!"FILECONT 16\npackage L end L;"],
      [b!"ERROR 6 76\nCouldn't open file /l/b.mo. The error message was: No such file or directory"]] := by
  decide +kernel

theorem honest_other {jobs : List Job} {msg : Bytes} {g : Grammar} {cmd : Command} {e : Bytes}
    (h : parseCommand 100 msg [] = .ok (g, cmd, e)) (hn : cmd.id ≠ .file) : Honest jobs msg := by
  intro n len ha
  rw [parse_of_accepts ha] at h
  simp only [Res.ok.injEq, Prod.mk.injEq] at h
  exact absurd (by rw [← h.2.1]) hn

-- the hypotheses of `c17_library` hold in such a session
example : ∃ t r, lveStep (toyConf [b!"k"] none generous) lib2
      ((stateOf (session (toyConf [b!"k"] none generous) (some b!"k")
        (inWorld lib2 [b!"VERSION 1\n", b!"LIB 2\n/l"]))).getD .initial) b!"FILE 7\nA/x.moc" =
      .ok ({ (stateOf (session (toyConf [b!"k"] none generous) (some b!"k")
        (inWorld lib2 [b!"VERSION 1\n", b!"LIB 2\n/l"]))).getD .initial with cr := some t }, [r]) ∧
    DataReply b!"FILECONT" b!"model x end x;" r := by
  have hw : Ample lib2 := roomy_ample _ _
  have hsv : Serves lib2 (cstr b!"/l") (outsOf (toyEnv []) exLib) := by
    have : ∀ o ∈ outsOf (toyEnv []) exLib,
        lib2.files (cstr b!"/l" ++ b!"/" ++ o.1) = .stream o.2.length o.2 none := by decide +kernel
    intro o ho
    exact ⟨_, _, _, this o ho, by simp, Or.inl rfl⟩
  have hfile : Denotes b!"7" 7 := ⟨[], [], b!"7", [], by decide, by simp, by simp, by simp, by decide, by simp,
    by decide⟩
  refine c17_library (conf := toyConf [b!"k"] none generous) (jobs := exLib) (outs := outsOf (toyEnv []) exLib)
    (base := (toyEnv []).basedir) (read := (toyEnv []).read) (root := b!"/l") (k := some b!"k")
    (turns := inWorld lib2 [b!"VERSION 1\n", b!"LIB 2\n/l"]) (replies := [[b!"VERSION 1\n"], [b!"YES\n"]])
    (j := ⟨[b!"A"], b!"x.mo", toyIv, toyMask 0, b!"model x end x;"⟩)
    ⟨(toyEnv_good []).crypto, by decide, by decide⟩ exLib_packaged (by decide +kernel) ?_ (by decide) ?_ ?_ ?_ ?_ ?_ hw hsv
    (by simp [exLib]) ⟨b!"A/x", b!"moc", by decide, by decide, by decide, by decide, by decide⟩ ?_ (by decide)
  · intro j hj; simp only [exLib, List.mem_cons, List.not_mem_nil, or_false] at hj
    rcases hj with rfl | rfl | rfl <;> simp
  · intro j hj; simp only [exLib, List.mem_cons, List.not_mem_nil, or_false] at hj
    rcases hj with rfl | rfl | rfl <;> decide
  · rw [session_iff]; decide +kernel
  · decide +kernel
  · decide +kernel
  · intro t ht
    simp only [inWorld, List.map_cons, List.map_nil, List.mem_cons, List.not_mem_nil, or_false] at ht
    rcases ht with rfl | rfl
    · exact ⟨hw, hsv, honest_other (by rfl) (by decide)⟩
    · exact ⟨hw, hsv, honest_other (by rfl) (by decide)⟩
  · exact ⟨b!"FILE 7", b!"A/x.moc", 0, by decide, by decide,
      .len (name := b!"FILE") (w := b!"7") (n := 7) (by decide) (by decide) hfile (by decide), by decide, by decide⟩

-- a file that is no encrypted file
example : repliesOf (session (toyConf [b!"k"] none generous) (some b!"k") (inWorld
    (roomy [(b!"/l/package.moc", List.replicate 100 65)] [b!"/l"])
    [b!"VERSION 1\n", b!"LIB 2\n/l", b!"FILE 11\npackage.moc"])) =
    some [[b!"VERSION 1\n"], [b!"YES\n"],
      [b!"ERROR 8 58\nFailed to decrypt file /l/package.moc, might be corrupted."]] := by decide +kernel

end Semla.Props
