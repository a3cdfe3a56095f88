import Verif.Props.PackUnpack
import Verif.Props.EndToEnd

/-!
# From the vendor's sources to the user's tool

C70: all three programs together.
-/

namespace Semla.Props

open Semla Semla.Spec

/-- The vendor executable has been built for the same key as the packaging tool, with the same primitives. -/
structure SameKey (env : PackEnv) (conf : LveConf) : Prop where
  crypto : conf.C = env.C
  key : conf.key = env.key
  keyLen : conf.keyLen = env.keyLen

/-- The archive has been unpacked: the directory `lib` of the archive is at `root`. -/
def InstalledAt (a : Archive) (lib root : Bytes) (w : World) : Prop :=
  ∀ p out, (lib :: p, out) ∈ a → Spec.Holds w (root ++ b!"/" ++ relPath p) out

/-- What a tool can ask for, and what it should get: a Modelica file of the library, by the name of its
encrypted twin, and any other file by its own name, unless this looks like that of an encrypted file. -/
inductive InLibrary (l : Listing) (content : List Bytes → Bytes) : Bytes → Bytes → Prop where
  | source {p} : IsSource l p → InLibrary l content (relPath (twin p)) (content p)
  | other {p} : (p, Kind.file) ∈ entries l → Outside p → ¬ ModelicaName (nameOf p) → ¬ IsMoc (relPath p) →
      (content p).length < 2 ^ 63 → InLibrary l content (relPath p) (content p)

theorem isMoc_of_modelica {pre n : Bytes} (h : ModelicaName n) : IsMoc (pre ++ n ++ b!"c") := by
  obtain ⟨a, b, rfl, h⟩ := h
  have h : b.map toLower = [46, 109, 111] := by
    unfold eqNoCase at h
    rw [beq_iff_eq] at h
    rw [h]
    decide
  rcases b with _ | ⟨x, _ | ⟨y, _ | ⟨z, _ | ⟨u, b⟩⟩⟩⟩
  · simp at h
  · simp at h
  · simp at h
  · simp only [List.map_cons, List.map_nil, List.cons.injEq, and_true] at h
    have hx := (toLower_eq_46 x).1 h.1
    subst hx
    refine ⟨pre ++ a, [y, z, 99], by simp, (moc_iff _).1 ?_⟩
    unfold eqNoCase
    rw [beq_iff_eq, List.map_cons, List.map_cons, h.2.1, h.2.2]
    decide
  · simp at h

theorem relPath_ends {p : List Bytes} (hp : p ≠ []) : ∃ pre, relPath p = pre ++ nameOf p := by
  rw [← dropLast_nameOf hp, nameOf_append]
  by_cases hd : p.dropLast = []
  · rw [hd]; exact ⟨[], rfl⟩
  · exact ⟨_, relPath_snoc _ _ hd⟩

theorem isMoc_twin {l : Listing} {p : List Bytes} (hp : IsSource l p) : IsMoc (relPath (twin p)) := by
  have hpne : p ≠ [] := entries_ne_nil l _ hp.1
  obtain ⟨pre, h⟩ := relPath_ends hpne
  rw [relPath_twin hpne, h]
  exact isMoc_of_modelica hp.2.2

theorem relPath_noNul {p : List Bytes} (hn : ∀ n ∈ p, IsName n) : (0 : UInt8) ∉ relPath p := by
  induction p with
  | nil => simp [relPath]
  | cons n p ih =>
    have h0 : (0 : UInt8) ∉ n := fun h => ((hn n (by simp)).2 0 h).2.2 rfl
    cases p with
    | nil => exact h0
    | cons m p =>
      have := ih fun x hx => hn x (by simp [hx])
      simp only [relPath, List.mem_append, not_or]
      exact ⟨⟨h0, by decide⟩, this⟩

/-- What a tool can ask for. -/
def Askable (l : Listing) (p : List Bytes) : Prop :=
  (∃ q, IsSource l q ∧ p = twin q) ∨ ((p, Kind.file) ∈ entries l ∧ Outside p)

theorem Askable.ne_nil {l : Listing} {p : List Bytes} (h : Askable l p) : p ≠ [] := by
  rcases h with ⟨q, -, rfl⟩ | ⟨h, -⟩
  · simp [twin]
  · exact entries_ne_nil l _ h

theorem Askable.ne_manifest {l : Listing} {p : List Bytes} (h : Askable l p) :
    p ≠ [b!".library", b!"manifest.xml"] := by
  intro hm
  rcases h with ⟨q, -, rfl⟩ | ⟨-, h⟩
  · have := congrArg (fun q => (nameOf q).getLast?) hm
    simp [twin, nameOf] at this
  · rw [hm] at h
    revert h
    decide

/-- The same, as far as the tool can ask. -/
def InstalledBut (l : Listing) (a : Archive) (lib root : Bytes) (w : World) : Prop :=
  ∀ p out, (lib :: p, out) ∈ a → Askable l p → Spec.Holds w (root ++ b!"/" ++ relPath p) out

theorem InstalledAt.but {l : Listing} {a : Archive} {lib root : Bytes} {w : World} (h : InstalledAt a lib root w) :
    InstalledBut l a lib root w := fun p out hp _ => h p out hp

theorem installed_serves (env : PackEnv) (args : List Bytes) (a : Archive)
    (h : packTool env args = .ok ⟨0, some a⟩) (ps : List (Bytes × Bytes)) (hp : ArgPairs args ps)
    (he : AsksEncryption ps) (path lib : Bytes) (hpath : (b!"librarypath", path) ∈ ps)
    (hlib : LibraryName path lib) (l : Listing) (hl : env.library = some l) (content : List Bytes → Bytes)
    (hc : Copyable env.librarySource l content) (ht : Truthful env lib) (hg : GoodCrypto env)
    (hr : ∀ p, env.canRead (lib :: p) = true) (hx : PlainExtras env) (hpk : PlainPackages l) (hn : NamesOk l)
    (hall : PackagesEverywhere l content)
    {conf : LveConf} (hsame : SameKey env conf) {dir root : Bytes} (hroot : IsRootOf dir root)
    (hnul : (0 : UInt8) ∉ dir) (hdl : dir.length ≤ 16000)
    (hsize : ∀ p, IsSource l p → root.length + 1 + (relPath (p.dropLast ++ [b!"package.moc"])).length < 4096 ∧
      (content p).length + 96 < 2 ^ 31)
    (hlic : Licensed conf root) {key : Bytes} (hkey : key ∈ conf.trusted) (hk0 : (0 : UInt8) ∉ key)
    (hks : ∀ t ∈ conf.trusted, (0 : UInt8) ∉ t) {minV maxV : Int} (hmin : minV ≤ 1) (hmax : 1 ≤ maxV)
    (hint : maxV < 2 ^ 31) {w0 w1 : World} (hw0 : Ample w0) (hi0 : InstalledBut l a lib root w0) (hw1 : Ample w1)
    (hi1 : InstalledBut l a lib root w1) (hdir : w1.stat root = some true) {reqs : List (World × Bytes × Bytes)}
    (hreqs : ∀ q ∈ reqs, Ample q.1 ∧ InstalledBut l a lib root q.1 ∧ q.2.1.length ≤ 16000 ∧
      InLibrary l content q.2.1 q.2.2) :
    GetsAll conf key minV maxV dir w0 w1 reqs := by
  obtain ⟨jobs, outs, base, read', hP, henc, hj1, hj2, hne, hout⟩ := packTool_jobs env args a h ps hp he path lib
    hpath hlib l hl content hc ht hg hr hx hpk hn hall
  have hsv : ∀ {w : World}, InstalledBut l a lib root w → Serves w root outs := by
    intro w hi o ho
    obtain ⟨p, hs, h1, h2⟩ := hout o ho
    rw [h1]
    exact hi _ _ h2 (Or.inl ⟨p, hs, rfl⟩)
  rw [← hsame.crypto, ← hsame.key, ← hsame.keyLen] at henc
  rw [← hsame.keyLen] at hP
  refine c28_delivery (conf := conf) ⟨hsame.crypto ▸ hg.crypto, hsame.key ▸ hg.key, hsame.keyLen ▸ hg.keyLen⟩ hP henc
    hne hroot hnul hdl ?_ hlic hkey hk0 hks hmin hmax hint hw0 (hsv hi0) hw1 (hsv hi1) hdir ?_
  · intro j hj
    obtain ⟨p, hs, h1, -, h3⟩ := hj1 j hj
    have := hsize p hs
    rw [← h1, ← h3] at this
    exact this
  · intro q hq
    obtain ⟨hw, hi, hlen, hin⟩ := hreqs q hq
    refine ⟨hw, hsv hi, hlen, ?_⟩
    obtain ⟨w, rq, text⟩ := q
    simp only at hin hi ⊢
    cases hin with
    | @source p hs =>
      obtain ⟨j, hj, h1, h2, h3⟩ := hj2 p hs
      have hpne : p ≠ [] := entries_ne_nil l _ hs.1
      have hjp : j.path ++ b!"c" = relPath (twin p) := by
        rw [relPath_twin hpne, Job.path, h1, h2, dropLast_nameOf hpne]
      rw [← hjp, ← h3]
      exact .source hj (hjp ▸ isMoc_twin hs)
    | @other p hf ho hm hmoc hsz =>
      refine .other (relPath_noNul (hn _ hf).1) hmoc ?_ hsz
      have := (c40_partial env args a h ps hp path lib hpath hlib l hl content hc ht (fun _ => ⟨hpk, hg, hr⟩) p hf ho
        (by
          intro _ q hq hpq
          exact hmoc (hpq ▸ isMoc_twin hq))).1 (fun hh => hm hh.2)
      exact hi _ _ this (Or.inr ⟨hf, ho⟩)

/-- **C70, partial.** A library is packaged with encryption, and the archive is unpacked somewhere.  A tool
whose key is trusted by the vendor executable starts it, opens the library at that place, there being a
license, and asks for any files of the library, any number of times and in any order.  Then it gets exactly
the texts of the Modelica files and the contents of the other files that the vendor packaged.

Missing for the full claim: the conditions of C57 (a package file in every directory, names without
backslash, sizes, copying), other files whose names look like those of encrypted files, and Modelica files
among the extra files of the vendor; unpacking is not modelled, files are as in the archive. -/
theorem c70_partial (env : PackEnv) (args : List Bytes) (a : Archive)
    (h : packTool env args = .ok ⟨0, some a⟩) (ps : List (Bytes × Bytes)) (hp : ArgPairs args ps)
    (he : AsksEncryption ps) (path lib : Bytes) (hpath : (b!"librarypath", path) ∈ ps)
    (hlib : LibraryName path lib) (l : Listing) (hl : env.library = some l) (content : List Bytes → Bytes)
    (hc : Copyable env.librarySource l content) (ht : Truthful env lib) (hg : GoodCrypto env)
    (hr : ∀ p, env.canRead (lib :: p) = true) (hx : PlainExtras env) (hpk : PlainPackages l) (hn : NamesOk l)
    (hall : PackagesEverywhere l content)
    {conf : LveConf} (hsame : SameKey env conf) {dir root : Bytes} (hroot : IsRootOf dir root)
    (hnul : (0 : UInt8) ∉ dir) (hdl : dir.length ≤ 16000)
    (hsize : ∀ p, IsSource l p → root.length + 1 + (relPath (p.dropLast ++ [b!"package.moc"])).length < 4096 ∧
      (content p).length + 96 < 2 ^ 31)
    (hlic : Licensed conf root) {key : Bytes} (hkey : key ∈ conf.trusted) (hk0 : (0 : UInt8) ∉ key)
    (hks : ∀ t ∈ conf.trusted, (0 : UInt8) ∉ t) {minV maxV : Int} (hmin : minV ≤ 1) (hmax : 1 ≤ maxV)
    (hint : maxV < 2 ^ 31) {w0 w1 : World} (hw0 : Ample w0) (hi0 : InstalledAt a lib root w0) (hw1 : Ample w1)
    (hi1 : InstalledAt a lib root w1) (hdir : w1.stat root = some true) {reqs : List (World × Bytes × Bytes)}
    (hreqs : ∀ q ∈ reqs, Ample q.1 ∧ InstalledAt a lib root q.1 ∧ q.2.1.length ≤ 16000 ∧
      InLibrary l content q.2.1 q.2.2) :
    GetsAll conf key minV maxV dir w0 w1 reqs :=
  installed_serves env args a h ps hp he path lib hpath hlib l hl content hc ht hg hr hx hpk hn hall hsame hroot hnul hdl
    hsize hlic hkey hk0 hks hmin hmax hint hw0 hi0.but hw1 hi1.but hdir fun q hq =>
      ⟨(hreqs q hq).1, (hreqs q hq).2.1.but, (hreqs q hq).2.2⟩

/-- The archive of the sample library. -/
def sampleArchive : Archive :=
  match packTool (sampleMachine sampleLib) (sampleCommand b!"True") with
  | .ok ⟨_, some a⟩ => a
  | _ => []

/-- The same, unpacked at `/opt/Lib`. -/
def sampleInstalled : World := roomy (sampleArchive.map fun f => (b!"/opt/" ++ relPath f.1, f.2)) [b!"/opt/Lib"]

theorem sampleInstalled_at : InstalledAt sampleArchive b!"Lib" b!"/opt/Lib" sampleInstalled := by
  have : ∀ f ∈ sampleArchive,
      sampleInstalled.files (b!"/opt/Lib" ++ b!"/" ++ relPath (f.1.drop 1)) = .stream f.2.length f.2 none := by
    decide +kernel
  intro p out h
  exact ⟨_, _, _, this _ h, by simp, Or.inl rfl⟩

/-- The theorem applies to the sample library, a Modelica file and an icon. -/
example : GetsAll (toyConf [b!"k"] (some b!"G") generous) b!"k" 1 2 b!"/opt/Lib/" sampleInstalled sampleInstalled
    [(sampleInstalled, b!"A/y.MOc", b!"text of A/y.MO"), (sampleInstalled, b!"A/i.png", b!"text of A/i.png")] := by
  refine c70_partial (sampleMachine sampleLib) (sampleCommand b!"True") sampleArchive (by rfl) (samplePairs b!"True")
    (sample_pairs _ (by decide)) ⟨b!"True", by decide, by decide⟩ b!"/l/Lib/" b!"Lib" (by decide) sample_name
    sampleLib rfl (fun p => b!"text of " ++ relPath p) (sample_copyable _ (by decide +kernel) (by decide +kernel))
    (sample_truthful _) (sample_crypto _) (fun _ => rfl) (fun l hl => by simp [sampleMachine] at hl)
    (by unfold PlainPackages; decide +kernel) (by unfold NamesOk IsName; decide +kernel) sample_everywhere
    ⟨rfl, rfl, rfl⟩ (root := b!"/opt/Lib") ⟨b!"/", by decide, ?_, by decide, Or.inr ?_⟩ (by decide) (by decide) ?_
    (Or.inr ⟨b!"G", rfl, rfl, rfl⟩) (by decide) (by decide) (by decide) (by decide) (by decide) (by decide)
    (roomy_ample _ _) sampleInstalled_at (roomy_ample _ _) sampleInstalled_at (by decide +kernel) ?_
  · intro b hb; simp at hb; subst hb; exact Or.inl rfl
  · intro b hb; simp at hb; subst hb; unfold IsSep; decide
  · have : ∀ e ∈ entries sampleLib, b!"/opt/Lib".length + 1 +
        (relPath (e.1.dropLast ++ [b!"package.moc"])).length < 4096 ∧
        (b!"text of " ++ relPath e.1).length + 96 < 2 ^ 31 := by decide +kernel
    exact fun p hp => this _ hp.1
  · intro q hq
    simp only [List.mem_cons, List.not_mem_nil, or_false] at hq
    rcases hq with rfl | rfl
    · refine ⟨roomy_ample _ _, sampleInstalled_at, by decide, ?_⟩
      exact .source (p := [b!"A", b!"y.MO"]) ⟨by decide +kernel, by decide, ⟨b!"y", b!".MO", rfl, by decide⟩⟩
    · refine ⟨roomy_ample _ _, sampleInstalled_at, by decide, ?_⟩
      refine .other (p := [b!"A", b!"i.png"]) (by decide +kernel) (by decide) ?_ ?_ (by decide)
      · rintro ⟨a, b, h, hb⟩
        have h2 : (b!"i.png".drop (b!"i.png".length - 3)).map toLower = b!".mo" := by
          have hl : b.length = 3 := by
            have := congrArg List.length (beq_iff_eq.1 hb)
            simpa using this
          have : nameOf [b!"A", b!"i.png"] = b!"i.png" := rfl
          rw [this] at h
          rw [h, List.length_append, hl, Nat.add_sub_cancel, List.drop_left]
          exact beq_iff_eq.1 hb
        revert h2
        decide
      · rw [← isEncryptedName_iff]
        decide

/-- All the way, on the sample machine. -/
example : contentsOf (fetch 1 2 b!"/opt/Lib/" [b!"A/y.MOc", b!"A/i.png", b!"package.moc"] ⟨fresh
      [.record b!"VERSION 1\n" [], .record b!"YES\n" [], .record b!"FILECONT 14\ntext of A/y.MO" [],
       .record b!"FILECONT 15\ntext of A/i.png" [], .record b!"FILECONT 18\ntext of package.mo" []],
      List.replicate 5 .written, []⟩) =
    some ([b!"text of A/y.MO", b!"text of A/i.png", b!"text of package.mo"].map (List.map some),
      [b!"VERSION 2\n", b!"LIB 9\n/opt/Lib/", b!"FILE 7\nA/y.MOc", b!"FILE 7\nA/i.png",
       b!"FILE 11\npackage.moc"]) := by decide +kernel
example : repliesOf (session (toyConf [b!"k"] none generous) (some b!"k") (inWorld sampleInstalled
      [b!"VERSION 2\n", b!"LIB 9\n/opt/Lib/", b!"FILE 7\nA/y.MOc", b!"FILE 7\nA/i.png",
       b!"FILE 11\npackage.moc"])) =
    some [[b!"VERSION 1\n"], [b!"YES\n"], [b!"FILECONT 14\ntext of A/y.MO"],
      [b!"FILECONT 15\ntext of A/i.png"], [b!"FILECONT 18\ntext of package.mo"]] := by decide +kernel

end Semla.Props
