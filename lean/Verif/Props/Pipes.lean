import Verif.Lemmas.PipesRun

/-!
# Tool and vendor executable never wait for each other

Property C81.
-/

namespace Semla.Props

open Semla Spec

/-- The messages of a client whose paths are as C24 asks. -/
def FitPath (a b : Nat) (c : CmdId) (s : Bytes) : Prop :=
  (c = .lib → ShortPath a s) ∧ (c = .file → PlainPath b s)

theorem sent_tame {L F : Bytes → Prop} {m : Bytes} (h : Sent (fun c s => (c = .lib → L s) ∧ (c = .file → F s)) m) :
    Tame L F m := by
  intro c n len ha hc
  rcases h with ⟨n', h'⟩ | ⟨k, s, -, hcar, hp⟩
  · obtain ⟨rfl, -, -⟩ := accepts_unique ha h'
    rcases hc with hc | hc
    · exact absurd hc (by decide)
    · exact absurd hc (by decide)
  · have h' := hcar
    obtain ⟨line, part, n', -, -, h', -, -⟩ := h'
    obtain ⟨rfl, -, -⟩ := accepts_unique ha h'
    exact ⟨s, hcar, hp⟩

/-- **C81, what holds** (full statement: for every program, whatever its arguments; false for the empty library
path, shown below).  A program makes calls of the tool's interface one after the other, which may depend on what it
got before, and the vendor executable answers.  However small the pipes between the two, however the records
are encoded and however the two processes are scheduled, there is an end to it, and it is always the same one: the
program has made all its calls, each of them returned, each sent one message and received one whole reply. -/
theorem c81_no_deadlock_partial {conf : LveConf} (hgood : GoodConf conf) (hpol : Polite conf) {k : Option Bytes}
    (hk : k ≠ none ∨ conf.trusted = []) {a b : Nat} (hab : a + b + 13 < 4096) {worlds : Nat → World}
    (hw : ∀ i, Ample (worlds i) ∧ SmallFiles (worlds i) ∧ SaneFiles conf.keyLen (worlds i)) {cl : Client}
    (hcl : ProperClient (FitPath a b) cl) :
    Completes conf k worlds cl := by
  refine client_ends (fun i => (hw i).1) (A := FitPath a b) (fun s h => (h.1 rfl).1) ?_ hcl
  intro msgs hm
  refine c24_survives_partial hgood hpol hk hab fun t ht => ?_
  obtain ⟨x, hx, rfl⟩ := List.mem_map.1 ht
  refine ⟨(hw x.2).1, (hw x.2).2.1, (hw x.2).2.2, sent_tame (hm x.1 ?_)⟩
  have := List.mem_zipIdx' hx
  rw [this.2]
  exact List.getElem_mem _

/-- The same for a packaged library, where encrypted files need not be of any particular size: the program opens the
library and asks for no encrypted files but those of the library. -/
theorem c81_library_partial {conf : LveConf} (hgood : GoodConf conf) (hpol : Polite conf) {k : Option Bytes}
    (hk : k ≠ none ∨ conf.trusted = []) {jobs : List Job} {outs : List (Bytes × Bytes)}
    {base : Bytes} {read : Bytes → Option Bytes} (hP : Packaged conf.keyLen jobs)
    (henc : encryptAll ⟨conf.C, conf.key, conf.keyLen, base, read⟩ [] jobs = .ok (some outs))
    (hne : ∀ j ∈ jobs, j.isPackage → j.plain ≠ []) {root : Bytes} (hrl : root.length < 2 ^ 62)
    (hsz : SizesOk ⟨conf.C, conf.key, conf.keyLen, cstr root, read⟩ jobs) {worlds : Nat → World}
    (hw : ∀ i, Ample (worlds i) ∧ SmallFiles (worlds i) ∧ Serves (worlds i) (cstr root) outs) {cl : Client}
    (hcl : ProperClient (fun c s => (c = .lib → IsRootOf s root) ∧ (c = .file → LibraryPath jobs s)) cl) :
    Completes conf k worlds cl := by
  refine client_ends (fun i => (hw i).1) (A := fun c s => (c = .lib → IsRootOf s root) ∧ (c = .file → LibraryPath jobs s))
    ?_ ?_ hcl
  · rintro s h rfl
    obtain ⟨seps, h1, -, h2, -⟩ := h.1 rfl
    simp at h1; exact h2 h1.1
  intro msgs hm
  refine c24_library_partial hgood hpol hk hP henc hne hrl hsz fun t ht => ?_
  obtain ⟨x, hx, rfl⟩ := List.mem_map.1 ht
  refine ⟨(hw x.2).1, (hw x.2).2.1, (hw x.2).2.2, sent_tame (hm x.1 ?_)⟩
  have := List.mem_zipIdx' hx
  rw [this.2]
  exact List.getElem_mem _

/-- A program that makes these calls, and stops at the first that fails. -/
def callsOf : List Call → Client
  | [] => .stop
  | c :: cs => .call c fun r => match r with
    | .success _ _ => callsOf cs
    | _ => .stop

theorem callsOf_proper {A : CmdId → Bytes → Prop} {cs : List Call} (h : ∀ c ∈ cs, Proper A c) :
    ProperClient A (callsOf cs) := by
  induction cs with
  | nil => exact .stop
  | cons c cs ih =>
    refine .call (h c (by simp)) fun r => ?_
    split
    · exact ih fun c hc => h c (by simp [hc])
    · exact .stop

theorem proper_of_argument {A : CmdId → Bytes → Prop} {c : Call} {k : CmdId} {s : Bytes} (h : Argument c = some (k, s))
    (h0 : (0 : UInt8) ∉ s ∧ s.length ≤ 16000) (hA : A k s) : Proper A c := by
  refine ⟨?_, ?_⟩
  · rintro a b rfl; cases h
  · intro k' s' h'
    rw [h] at h'
    injection h' with h'
    injection h' with h1 h2
    subst h1 h2
    exact ⟨h0.1, h0.2, hA⟩

/-- Version, library, feature, file. -/
def exCalls : List Call := [.version 1 4, .libpath b!"/l", .feature b!"f", .file b!"A/damaged.moc", .file b!"icon.png"]

-- the hypotheses hold for a program that opens a library and reads a damaged file and an image
example : Completes (toyConf [b!"k"] none generous) (some b!"k") (fun _ => lib4) (callsOf exCalls) := by
  refine c81_no_deadlock_partial (a := 2000) (b := 2000) ⟨toy_good, by decide, by decide⟩ (by intro c m h; cases h)
    (Or.inl (by simp)) (by omega) (fun _ => ⟨roomy_ample _ _, lib4_sane.1, lib4_sane.2⟩) (callsOf_proper ?_)
  intro c hc
  simp only [exCalls, List.mem_cons, List.not_mem_nil, or_false] at hc
  rcases hc with rfl | rfl | rfl | rfl | rfl
  · refine ⟨fun a b h => ?_, fun k s h => by cases h⟩
    injection h with h1 h2
    omega
  · exact proper_of_argument rfl (by decide) ⟨fun _ => ⟨by decide, by decide⟩, fun h => absurd h (by decide)⟩
  · exact proper_of_argument rfl (by decide) ⟨fun h => absurd h (by decide), fun h => absurd h (by decide)⟩
  · exact proper_of_argument rfl (by decide) ⟨fun h => absurd h (by decide), fun _ => ⟨by decide, fun _ => by decide⟩⟩
  · exact proper_of_argument rfl (by decide) ⟨fun h => absurd h (by decide),
      fun _ => ⟨by decide, fun h => absurd ((isEncryptedName_iff _).2 h) (by decide)⟩⟩

-- the hypotheses of `c81_library_partial` hold for the library of C17
example : Completes (toyConf [b!"k"] none generous) (some b!"k") (fun _ => lib2)
    (callsOf [.version 1 4, .libpath b!"/l/", .file b!"A/x.moc", .license b!"A", .file b!"icon.png"]) := by
  have hsv : Serves lib2 (cstr b!"/l") (outsOf (toyEnv []) exLib) := by
    have : ∀ o ∈ outsOf (toyEnv []) exLib,
        lib2.files (cstr b!"/l" ++ b!"/" ++ o.1) = .stream o.2.length o.2 none := by decide +kernel
    intro o ho
    exact ⟨_, _, _, this o ho, by simp, Or.inl rfl⟩
  have hsm : SmallFiles lib2 := by
    have key : ∀ f ∈ ((outsOf (toyEnv []) exLib).map fun o => (b!"/l/" ++ o.1, o.2)) ++
      [(b!"/l/icon.png", b!"PNG")], f.2.length < 2 ^ 31 := by decide +kernel
    exact fun p c h => key _ (roomy_holds h)
  refine c81_library_partial (conf := toyConf [b!"k"] none generous) (jobs := exLib)
    (outs := outsOf (toyEnv []) exLib) (base := (toyEnv []).basedir) (read := (toyEnv []).read) (root := b!"/l")
    ⟨toy_good, by decide, by decide⟩ (by intro c m h; cases h) (Or.inl (by simp))
    exLib_packaged (by decide +kernel) ?_ (by decide) ?_ (fun _ => ⟨roomy_ample _ _, hsm, hsv⟩) (callsOf_proper ?_)
  · intro j hj; simp only [exLib, List.mem_cons, List.not_mem_nil, or_false] at hj
    rcases hj with rfl | rfl | rfl <;> simp
  · intro j hj; simp only [exLib, List.mem_cons, List.not_mem_nil, or_false] at hj
    rcases hj with rfl | rfl | rfl <;> decide
  intro c hc
  simp only [List.mem_cons, List.not_mem_nil, or_false] at hc
  rcases hc with rfl | rfl | rfl | rfl | rfl
  · refine ⟨fun a b h => ?_, fun k s h => by cases h⟩
    injection h with h1 h2
    omega
  · exact proper_of_argument rfl (by decide)
      ⟨fun _ => ⟨b!"/", by decide, by simp [IsSep], by simp, by simp [IsSep]⟩, fun h => absurd h (by decide)⟩
  · exact proper_of_argument rfl (by decide) ⟨fun h => absurd h (by decide), fun _ => ⟨by decide, fun _ =>
      ⟨⟨[b!"A"], b!"x.mo", toyIv, toyMask 0, b!"model x end x;"⟩, by simp [exLib], by decide⟩⟩⟩
  · exact proper_of_argument rfl (by decide) ⟨fun h => absurd h (by decide), fun h => absurd h (by decide)⟩
  · exact proper_of_argument rfl (by decide) ⟨fun h => absurd h (by decide),
      fun _ => ⟨by decide, fun h => absurd ((isEncryptedName_iff _).2 h) (by decide)⟩⟩

/-- **C81 is not true of the empty library path**: the vendor executable sends no reply to `LIB 0`, so that both
processes wait for each other for ever (`src/lve/mlle_lve_libpath.c:63-68`,
`src/tool/mlle_licensing.c:254-268`). -/
theorem c81_waits_for_ever_not :
    ∃ (conf : LveConf) (k : Option Bytes) (st0 : LveSt) (worlds : Nat → World) (cl : Client) (n : Nat) (s : Net),
      GoodConf conf ∧ Polite conf ∧ k ≠ none ∧ (∀ i, Ample (worlds i)) ∧ ProperClient (fun _ _ => True) cl ∧
      lveStart conf k = .ok st0 ∧
      Steps (fun _ => 0) 512 (toolProgram cl) (lveProgram conf st0 worlds)
        n (.start (fun _ => 0) (toolProgram cl) (lveProgram conf st0 worlds)) s ∧
      Still (fun _ => 0) 512 (toolProgram cl) (lveProgram conf st0 worlds) s ∧
      (toolProgram cl s.tool.taken).2 = false := by
  let conf := toyConf [b!"k"] none generous
  let cl := callsOf [.version 1 1, .libpath []]
  let lve := lveProgram conf { LveSt.initial with approved := true } fun _ => lib1
  have t0 : toolProgram cl [] = ([b!"VERSION 1\n"], false) := by decide +kernel
  have t1 : toolProgram cl [b!"VERSION 1\n"] = ([b!"VERSION 1\n", b!"LIB 0\n"], false) := by decide +kernel
  have l0 : lve [] = ([], false) := by decide +kernel
  have l1 : lve [b!"VERSION 1\n"] = ([b!"VERSION 1\n"], false) := by decide +kernel
  have l2 : lve [b!"VERSION 1\n", b!"LIB 0\n"] = ([b!"VERSION 1\n"], false) := by decide +kernel
  have w1 : wireMessage (fun _ => 0) b!"VERSION 1\n" = [some b!"VERSION 1\n"] := by decide +kernel
  have w2 : wireMessage (fun _ => 0) b!"LIB 0\n" = [some b!"LIB 0\n"] := by decide +kernel
  refine ⟨conf, some b!"k", { LveSt.initial with approved := true }, fun _ => lib1, cl, 6,
    ⟨⟨[b!"VERSION 1\n"], []⟩, ⟨[b!"VERSION 1\n", b!"LIB 0\n"], []⟩, [], []⟩, ⟨toy_good, by decide, by decide⟩,
    fun c m h => (by cases h), by decide, fun _ => roomy_ample _ _, callsOf_proper ?_, rfl, ?_, ?_, ?_⟩
  · intro c hc
    simp only [List.mem_cons, List.not_mem_nil, or_false] at hc
    rcases hc with rfl | rfl
    · refine ⟨fun a b h => ?_, fun k s h => by cases h⟩
      injection h with h1 h2
      omega
    · exact proper_of_argument rfl (by decide) trivial
  · have hs : Net.start (fun _ => 0) (toolProgram cl) lve = ⟨⟨[], [some b!"VERSION 1\n"]⟩, ⟨[], []⟩, [], []⟩ := by
      simp [Net.start, Side.start, t0, l0, w1]
    have k1 : Side.take (fun _ => 0) lve ⟨[], []⟩ (some b!"VERSION 1\n") =
        ⟨[b!"VERSION 1\n"], [some b!"VERSION 1\n"]⟩ := by simp [Side.take, l0, l1, w1]
    have k2 : Side.take (fun _ => 0) (toolProgram cl) ⟨[], []⟩ (some b!"VERSION 1\n") =
        ⟨[b!"VERSION 1\n"], [some b!"LIB 0\n"]⟩ := by simp [Side.take, t0, t1, w2]
    have k3 : Side.take (fun _ => 0) lve ⟨[b!"VERSION 1\n"], []⟩ (some b!"LIB 0\n") =
        ⟨[b!"VERSION 1\n", b!"LIB 0\n"], []⟩ := by simp [Side.take, l1, l2]
    have s1 := Steps.snoc (.nil (size := fun _ => 0) (cap := 512) (tool := toolProgram cl) (lve := lve) _)
      (.toolWrites (taken := []) (x := some b!"VERSION 1\n") (more := []) (l := ⟨[], []⟩) (up := []) (down := [])
        (by decide))
    have s2 := s1.snoc (.lveReads (by rw [l0]))
    rw [k1] at s2
    have s3 := s2.snoc (.lveWrites (by decide))
    have s4 := s3.snoc (.toolReads (by rw [t0]))
    rw [k2] at s4
    have s5 := s4.snoc (.toolWrites (by decide))
    have s6 := s5.snoc (.lveReads (by rw [l1]))
    rw [k3] at s6
    rw [hs]
    exact s6
  · intro s' h
    cases h
  · change (toolProgram cl [b!"VERSION 1\n"]).2 = false
    rw [t1]

end Semla.Props
