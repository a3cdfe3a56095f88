import Verif.Lemmas.BuildTools

/-!
# Properties of the build tools

C73.
-/

namespace Semla.Props

open Semla Semla.Spec

/-- **C73, text of the header.** For every name and every key: the generated text is four well-formed macros that
stay inside their array, and executing them yields the key without carriage returns, NUL-terminated, with the right
length macro. -/
theorem c73_header {name : Bytes} (hn : IsIdentifier name) (data : Bytes) :
    Provides name (headerText name data) (unixText data) := provides_headerText hn data

/-- An identifier, and the text for a key of four bytes. -/
example : IsIdentifier b!"KEY_1" ∧ headerText b!"K" b!"A\r\n\x00" =
    b!"#define DECLARE_K() unsigned char K[5]\n#define K_LEN (3)\n#define INITIALIZE_K() do { K[0] = '\\x41'; K[1] = '\\xa'; K[2] = '\\x0'; K[3] = '\\x0'; K[4] = '\\0'; } while (0)\n#define CLEAR_K() memset(K, 0, K_LEN)\n" := by
  constructor
  · unfold IsIdentifier; decide
  · decide +kernel

/-- Full statement: whenever `obfuscate` ends with status 0, the output file provides the key file. -/
def c73_obfuscate_full : Prop := ∀ env : BuildEnv, (∀ f c, env.content f = some c → env.stat f = some c.length) →
  ∀ out file name type, IsIdentifier name → ∀ result, obfuscateMain env [out, file, name, type] = .ok result →
    result.code = 0 → ∃ text c, result.output = some text ∧ env.content file = some c ∧
      Provides name text (unixText c)

/-- **C73, `obfuscate`.** If everything written gets to the disk, status 0 means that the output file provides the key
file.  Any other status means that the output file has not been opened.
Missing: lost writes (`c73_lost_not`), and a file without status information (`c73_stat_not`). -/
theorem c73_obfuscate_partial {env : BuildEnv} (hk : env.kept = none)
    (hs : ∀ f c, env.content f = some c → env.stat f = some c.length) {out file name type : Bytes}
    (hn : IsIdentifier name) {result : BuildResult}
    (h : obfuscateMain env [out, file, name, type] = .ok result) :
    (result.code = 0 → ∃ text c, result.output = some text ∧ env.content file = some c ∧
      Provides name text (unixText c)) ∧ (result.code ≠ 0 → result.output = none) := by
  have hout : (result.code = 0 → ∃ text, result.output = some text) ∧ (result.code ≠ 0 → result.output = none) := by
    unfold obfuscateMain at h
    simp only at h
    split at h
    · cases hr : readKeyFile env file with
      | ub u => simp [hr] at h
      | ok r =>
        simp only [hr, Res.bind_ok] at h
        cases r with
        | none => simp only [Res.ok.injEq] at h; subst h; simp
        | some d =>
          simp only [createHeaderFile, Res.ok.injEq] at h
          subst h
          split <;> simp
    · simp only [Res.ok.injEq] at h; subst h; simp
  refine ⟨fun h0 => ?_, hout.2⟩
  obtain ⟨text, ht⟩ := hout.1 h0
  obtain ⟨code, output⟩ := result
  simp only at h0 ht
  subst h0 ht
  obtain ⟨_, _, _, _, n, c, he, h1, h2, h3, h4⟩ := obfuscate_ok hk h
  simp only [List.cons.injEq, and_true] at he
  obtain ⟨rfl, rfl, rfl, rfl⟩ := he
  refine ⟨text, c, rfl, h2, ?_⟩
  rw [hs _ _ h2] at h1
  cases h1
  rw [h4, List.take_of_length_le (Nat.le_refl _)]
  exact provides_headerText hn c

/-- **C73, `obfuscate` succeeds.** On a readable, non-empty key file, with memory and a writable output, for each of
the three key types. -/
theorem c73_obfuscate_succeeds {env : BuildEnv} {out file name type c : Bytes}
    (hs : env.stat file = some c.length) (hc : env.content file = some c) (h0 : c ≠ [])
    (hm : env.calloc (c.length + 1) = true) (hw : env.canWrite out = true) (hk : env.kept = none)
    (hn : IsIdentifier name) (ht : type = b!"TOOL_PUBLIC" ∨ type = b!"TOOL_PRIVATE" ∨ type = b!"LVE_PRIVATE") :
    ∃ text, obfuscateMain env [out, file, name, type] = .ok ⟨0, some text⟩ ∧ Provides name text (unixText c) := by
  have hl : ¬ (c.length = 0 ∨ c.length < c.length) := by
    have := List.length_pos_iff.mpr h0
    omega
  refine ⟨_, ?_, provides_headerText hn c⟩
  unfold obfuscateMain readKeyFile
  simp only [hs, hc, hm, not_true, if_false, if_neg hl, Res.bind_ok, List.take_length]
  rw [if_pos (by rcases ht with h | h | h <;> simp [h])]
  simp [createHeaderFile, hw, hk]

/-- A build with some files and enough memory. -/
def buildWith (files : List (Bytes × Bytes)) (kept : Option Nat) : BuildEnv where
  stat f := (files.lookup f).map (·.length)
  calloc _ := true
  content f := files.lookup f
  canWrite _ := true
  kept := kept
  random := some (List.replicate 32 7)

theorem buildWith_stat (files : List (Bytes × Bytes)) (kept : Option Nat) (f c : Bytes)
    (h : (buildWith files kept).content f = some c) : (buildWith files kept).stat f = some c.length := by
  simp only [buildWith] at h ⊢
  simp [h]

example : ((obfuscateMain (buildWith [(b!"k.pem", b!"KEY\n")] none) [b!"k.h", b!"k.pem", b!"K", b!"TOOL_PUBLIC"]) =
    .ok ⟨0, some (headerText b!"K" b!"KEY\n")⟩) := by decide +kernel

/-- **C73, negation.** Bytes of the header that do not get to the disk are not noticed: the status is 0. -/
theorem c73_lost_not : ¬ c73_obfuscate_full := by
  intro h
  have := h (buildWith [(b!"k", b!"A")] (some 3)) (buildWith_stat _ _) b!"o" b!"k" b!"K" b!"TOOL_PUBLIC"
    (by unfold IsIdentifier; decide) ⟨0, some b!"#de"⟩ (by decide +kernel) rfl
  obtain ⟨text, c, h1, -, m, h3, -⟩ := this
  simp only [Option.some.injEq] at h1
  subst h1
  have h4 : readHeader b!"K" b!"#de" = none := by decide +kernel
  rw [h4] at h3
  cases h3

/-- **C73, negation.** A key file that is not there is not reported: behaviour is undefined (a character is printed
with `%s`). -/
theorem c73_stat_not {env : BuildEnv} {out file name : Bytes} (h : env.stat file = none) :
    obfuscateMain env [out, file, name, b!"TOOL_PUBLIC"] = .ub .oobRead := by
  simp [obfuscateMain, readKeyFile, h]

example : (buildWith [] none).stat b!"k" = none := rfl

/-- **C73, the random key.** If everything written gets to the disk, status 0 means that the output file provides the
bytes drawn (without bytes 13, see C53); another status that the output file has not been opened. -/
theorem c73_random_partial {env : BuildEnv} (hk : env.kept = none) {out name : Bytes} (hn : IsIdentifier name)
    {draw : Bytes} (hd : ∀ d, env.random = some d → d = draw ∧ draw.length = 32) {result : BuildResult}
    (h : randomizeMain env [out, name] = .ok result) :
    (result.code = 0 → ∃ text, result.output = some text ∧ Provides name text (unixText draw)) ∧
    (result.code ≠ 0 → result.output = none) := by
  unfold randomizeMain at h
  simp only at h
  split at h
  · cases h
  · cases hr : env.random with
    | none => simp only [hr, Res.ok.injEq] at h; subst h; simp
    | some d =>
      obtain ⟨rfl, hl⟩ := hd d hr
      have : d.take crKeyLength = d := List.take_of_length_le (by rw [hl]; decide)
      simp only [hr, createHeaderFile, hk, this, Res.ok.injEq] at h
      subst h
      split
      · simp
      · simp only [ne_eq, not_true, false_implies, and_true, Option.some.injEq]
        intro _
        exact ⟨_, rfl, provides_headerText hn d⟩

example : randomizeMain (buildWith [] none) [b!"o", b!"K"] = .ok ⟨0, some (headerText b!"K" (List.replicate 32 7))⟩ := by
  decide +kernel

/-- **C73, a random key can be made.** With memory, random bytes and a place for the output, `randomize_key` ends with
status 0. -/
theorem c73_random_succeeds {env : BuildEnv} {out name draw : Bytes} (hc : env.calloc 32 = true)
    (hr : env.random = some draw) (hw : env.canWrite out = true) :
    ∃ text, randomizeMain env [out, name] = .ok ⟨0, some text⟩ := by
  simp only [randomizeMain, show crKeyLength = 32 from rfl, hc, hr, createHeaderFile, hw, not_true, if_false]
  exact ⟨_, rfl⟩

example : ∃ text, randomizeMain (buildWith [] none) [b!"o", b!"K"] = .ok ⟨0, some text⟩ :=
  c73_random_succeeds (draw := List.replicate 32 7) rfl rfl rfl

/-- **C73, negation.** Without memory `randomize_key` gives NULL to `RAND_bytes`. -/
theorem c73_random_not {env : BuildEnv} {out name : Bytes} (h : env.calloc 32 = false) :
    randomizeMain env [out, name] = .ub .nullDeref := by
  simp [randomizeMain, crKeyLength, h]

example : ({ buildWith [] none with calloc := fun _ => false } : BuildEnv).calloc 32 = false := rfl

/-- One run of `obfuscate` in a build: key file, its contents, and the macros in the header that it wrote. -/
structure Job where
  out : Bytes
  file : Bytes
  name : Bytes
  content : Bytes
  macros : Macros

/-- The job has been done: `obfuscate` ended with status 0, and the compiler read these macros in its output. -/
def Job.Done (env : BuildEnv) (j : Job) : Prop :=
  IsIdentifier j.name ∧ env.content j.file = some j.content ∧ ∃ text,
    obfuscateMain env [j.out, j.file, j.name, b!"TOOL_PUBLIC"] = .ok ⟨0, some text⟩ ∧
    readHeader j.name text = some j.macros

/-- **C73, from the key files to the comparison.** For every list of key files, built without lost writes: the vendor
executable compares the tool's key with exactly these files, carriage returns aside, and reads no byte outside of its
arrays or uninitialised. -/
theorem c73_trusted {env : BuildEnv} (hk : env.kept = none)
    (hs : ∀ f c, env.content f = some c → env.stat f = some c.length) (jobs : List Job)
    (hj : ∀ j ∈ jobs, j.Done env ∧ (0 : UInt8) ∉ j.content) {key : Bytes} (h0 : (0 : UInt8) ∉ key) :
    compareKeys (some key) (jobs.map (·.macros.array)) = .ok (decide (∃ j ∈ jobs, unixText j.content = key)) := by
  have hkey : cstr key = key := cstr_of_noNul fun c hc h => h0 (h ▸ hc)
  induction jobs with
  | nil => simp [compareKeys]
  | cons j js ih =>
    obtain ⟨⟨hn, hc, text, hr, hm⟩, hz⟩ := hj j (by simp)
    obtain ⟨_, _, _, _, n, c, he, h1, h2, h3, h4⟩ := obfuscate_ok hk hr
    simp only [List.cons.injEq, and_true] at he
    obtain ⟨rfl, rfl, rfl, -⟩ := he
    rw [hc] at h2
    cases h2
    rw [hs _ _ hc] at h1
    cases h1
    rw [h4, List.take_of_length_le (Nat.le_refl _), readHeader_headerText hn] at hm
    have ha : j.macros.array = (strippedData j.content).map some ++ [some 0] := by
      rw [← macros_array]
      rw [Option.some.injEq] at hm
      rw [← hm]
    have hread : readCStr j.macros.array = .ok (unixText j.content) := by
      rw [ha]
      have hz := unixText_noNul hz
      unfold strippedData
      split
      · simp only [List.map_append, List.map_cons, List.append_assoc, List.cons_append]
        exact readCStr_map _ hz _
      · simp only [List.append_nil]
        exact readCStr_map _ hz []
    simp only [List.map_cons, compareKeys, hread, Res.bind_ok, hkey]
    rw [ih fun j hj' => hj j (by simp [hj'])]
    by_cases hh : key = unixText j.content
    · simp [hh]
    · rw [if_neg hh]
      congr 1
      simp only [List.mem_cons, exists_eq_or_imp]
      have : ¬ unixText j.content = key := fun h => hh h.symm
      simp [this]

/-- Two key files; the second one was written on Windows. -/
def someBuild : BuildEnv := buildWith [(b!"a.pem", b!"A\n"), (b!"b.pem", b!"B\r\n")] none

def someJobs : List Job :=
  [⟨b!"a.h", b!"a.pem", b!"A", b!"A\n", ⟨3, 2, [(0, 65), (1, 10), (2, 0)]⟩⟩,
   ⟨b!"b.h", b!"b.pem", b!"B", b!"B\r\n", ⟨4, 2, [(0, 66), (1, 10), (2, 0), (3, 0)]⟩⟩]

example : ∀ j ∈ someJobs, j.Done someBuild ∧ (0 : UInt8) ∉ j.content := by
  intro j hj
  simp only [someJobs, List.mem_cons, List.not_mem_nil, or_false] at hj
  rcases hj with rfl | rfl
  · exact ⟨⟨by unfold IsIdentifier; decide, by decide, _, rfl, by decide +kernel⟩, by decide⟩
  · exact ⟨⟨by unfold IsIdentifier; decide, by decide, _, rfl, by decide +kernel⟩, by decide⟩

example : compareKeys (some b!"B\n") (someJobs.map (·.macros.array)) = .ok true ∧
    compareKeys (some b!"B\r\n") (someJobs.map (·.macros.array)) = .ok false := by decide +kernel

end Semla.Props
