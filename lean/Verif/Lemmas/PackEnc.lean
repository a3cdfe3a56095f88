import Verif.Lemmas.Pack
import Verif.Lemmas.CrSafe

/-! # Lemmas: encryption by the packaging tool -/

namespace Semla

open Spec

/-! ## One file -/

theorem encLoop_bad_none {C : Crypto} {key : Bytes} (fuel : Nat) (ctx : EncCtx) (inp : Bytes)
    {r : List Bytes × Option EncCtx} (h : encLoop C key true fuel ctx inp = .ok r) : r.2 = none := by
  induction fuel generalizing ctx inp r with
  | zero => simp [encLoop] at h
  | succ fuel ih =>
    unfold encLoop at h
    split at h
    · simp only [if_true, Res.ok.injEq] at h
      rw [← h]
    · rw [Res.bind_eq_ok] at h
      obtain ⟨⟨o, c⟩, -, h⟩ := h
      dsimp only at h
      rw [Res.bind_eq_ok] at h
      obtain ⟨⟨os, r'⟩, h1, h⟩ := h
      have := ih _ _ h1
      simp only [Res.ok.injEq] at h
      rw [← h]
      exact this

/-- A successful call had no trouble reading and writing. -/
theorem crEncrypt_success {e : CrEnv} {t t' : MaskTable} {p iv : Bytes} {rand : Bytes → Bytes} {inp : Bytes}
    {bad : Bool} {wOk : Nat → Bool} {out : Bytes}
    (h : crEncrypt e t p iv rand inp bad wOk = .ok (t', out, true)) :
    bad = false ∧ crEncrypt e t p iv rand inp false (fun _ => true) = .ok (t', out, true) := by
  unfold crEncrypt at h ⊢
  split at h
  · simp at h
  · simp only [not_true_eq_false, if_false]
    rw [Res.bind_eq_ok] at h
    obtain ⟨m, h1, h⟩ := h
    rw [h1, Res.bind_ok]
    split at h
    · simp at h
    · rename_i hneg
      rw [if_neg hneg]
      rw [Res.bind_eq_ok] at h
      obtain ⟨⟨ws, complete⟩, h2, h⟩ := h
      simp only [Res.ok.injEq, Prod.mk.injEq, Bool.and_eq_true] at h
      obtain ⟨h3, h4, h5, h6⟩ := h
      have hb : bad = false := by
        cases bad with
        | false => rfl
        | true =>
          unfold encBody at h2
          rw [Res.bind_eq_ok] at h2
          obtain ⟨⟨ws', r⟩, h7, h2⟩ := h2
          have := encLoop_bad_none _ _ _ h7
          simp only at this
          subst this
          simp only [Res.ok.injEq, Prod.mk.injEq] at h2
          rw [← h2.2] at h6
          simp at h6
      subst hb
      refine ⟨rfl, ?_⟩
      rw [h2, Res.bind_ok]
      have hw : runWrites wOk 1 ws = ((runWrites wOk 1 ws).1, true) := by rw [← h5]
      have := runWrites_true hw
      simp only [runWrites_all (fun _ => true) (fun _ => rfl)]
      rw [← h3, ← h4, this, h6]
      rfl

/-! ## Sequences of files -/

/-- The files `ps`, until one fails. -/
def encSeq (env : PackEnv) (e : CrEnv) (lib : Bytes) : List (List Bytes) → EncState → Res (EncState × Bool)
  | [], s => .ok (s, true)
  | p :: ps, s => do
    let (s, ok) ← encryptOne env e lib p s
    if ok then encSeq env e lib ps s else .ok (s, false)

theorem encSeq_append (env : PackEnv) (e : CrEnv) (lib : Bytes) (a b : List (List Bytes)) (s : EncState) :
    encSeq env e lib (a ++ b) s = (do
      let (s, ok) ← encSeq env e lib a s
      if ok then encSeq env e lib b s else .ok (s, false)) := by
  induction a generalizing s with
  | nil => simp [encSeq]
  | cons p a ih =>
    simp only [List.cons_append, encSeq]
    cases encryptOne env e lib p s with
    | ub k => rfl
    | ok r =>
      obtain ⟨s', ok⟩ := r
      cases ok with
      | false => simp
      | true => simpa using ih s'

/-- What one file does. -/
theorem encryptOne_ok {env : PackEnv} {e : CrEnv} {lib : Bytes} {p : List Bytes} {s s' : EncState} {ok : Bool}
    (h : encryptOne env e lib p s = .ok (s', ok)) :
    ∃ content bad t out, env.openRead s.fs (lib :: p) = some (content, bad) ∧
      crEncrypt e s.table (joinPath p) (env.iv p) (fun _ => env.mask p) content bad (env.writeOk p) =
        .ok (t, out, ok) ∧
      s' = ⟨t, s.fs.set (lib :: encryptedPath p) (.file out), s.log ++ [p]⟩ := by
  unfold encryptOne at h
  split at h
  · simp at h
  · rename_i content bad ho
    dsimp only at h
    split at h
    · simp at h
    · rw [Res.bind_eq_ok] at h
      obtain ⟨⟨t, bytes, ok'⟩, h1, h⟩ := h
      simp only [Res.ok.injEq, Prod.mk.injEq] at h
      obtain ⟨h2, h3⟩ := h
      subst h3
      exact ⟨content, bad, t, bytes, ho, h1, h2.symm⟩

/-- Files with Modelica names are never changed. -/
def KeepsSources (fs fs' : Staged) : Prop := ∀ q, ModelicaName (nameOf q) → fs'.get q = fs.get q

theorem nameOf_append (p : List Bytes) (n : Bytes) : nameOf (p ++ [n]) = n := by
  simp [nameOf]

theorem nameOf_cons (n : Bytes) {p : List Bytes} (h : p ≠ []) : nameOf (n :: p) = nameOf p := by
  cases p with
  | nil => exact absurd rfl h
  | cons a p => simp [nameOf, List.getLastD]

theorem nameOf_encryptedPath (lib : Bytes) (p : List Bytes) :
    nameOf (lib :: encryptedPath p) = nameOf p ++ b!"c" := by
  unfold encryptedPath
  rw [nameOf_cons _ (by simp), nameOf_append]
  rfl

theorem modelica_package : ModelicaName b!"package.mo" := ⟨b!"package", b!".mo", rfl, by decide⟩

theorem KeepsSources.set {fs fs' : Staged} (h : KeepsSources fs fs') (lib : Bytes) (p : List Bytes) (n : Node) :
    KeepsSources fs (fs'.set (lib :: encryptedPath p) n) := by
  intro q hq
  rw [Staged.get_set, if_neg, h q hq]
  rintro rfl
  rw [nameOf_encryptedPath] at hq
  exact not_modelica_append_c _ hq

theorem KeepsSources.one {env : PackEnv} {e : CrEnv} {lib : Bytes} {p : List Bytes} {s s' : EncState}
    {ok : Bool} {fs : Staged} (hk : KeepsSources fs s.fs) (h : encryptOne env e lib p s = .ok (s', ok)) :
    KeepsSources fs s'.fs := by
  obtain ⟨content, bad, t, out, -, -, rfl⟩ := encryptOne_ok h
  exact hk.set _ _ _

theorem KeepsSources.seq {env : PackEnv} {e : CrEnv} {lib : Bytes} {ps : List (List Bytes)} {s s' : EncState}
    {ok : Bool} {fs : Staged} (hk : KeepsSources fs s.fs) (h : encSeq env e lib ps s = .ok (s', ok)) :
    KeepsSources fs s'.fs := by
  induction ps generalizing s with
  | nil =>
    simp only [encSeq, Res.ok.injEq, Prod.mk.injEq] at h
    rw [← h.1]
    exact hk
  | cons p ps ih =>
    unfold encSeq at h
    rw [Res.bind_eq_ok] at h
    obtain ⟨⟨s1, ok1⟩, h1, h⟩ := h
    have hk1 := hk.one h1
    dsimp only at h
    split at h
    · exact ih hk1 h
    · simp only [Res.ok.injEq, Prod.mk.injEq] at h
      rw [← h.1]
      exact hk1

/-- The package file of a directory can be opened. -/
def opens (env : PackEnv) (lib : Bytes) (fs : Staged) (dir : List Bytes) : Bool :=
  (env.openRead fs (lib :: dir ++ [b!"package.mo"])).isSome

theorem opens_iff (env : PackEnv) (lib : Bytes) (fs : Staged) (dir : List Bytes) :
    opens env lib fs dir = true ↔ env.canRead (lib :: dir ++ [b!"package.mo"]) = true ∧
      fs.get (lib :: dir ++ [b!"package.mo"]) ≠ none := by
  unfold opens PackEnv.openRead
  split
  · rename_i h
    rw [h]
    cases fs.get (lib :: dir ++ [b!"package.mo"]) with
    | none => simp
    | some n => cases n <;> simp
  · rename_i h
    simp only [Option.isSome_none, Bool.false_eq_true, false_iff]
    exact fun h' => h h'.1

theorem KeepsSources.opens {env : PackEnv} {lib : Bytes} {fs fs' : Staged} (h : KeepsSources fs fs')
    (dir : List Bytes) : Semla.opens env lib fs' dir = Semla.opens env lib fs dir := by
  unfold Semla.opens PackEnv.openRead
  rw [h _ (by rw [nameOf_append]; exact modelica_package)]

/-- The package file of a directory, if it can be opened. -/
def pkgPath (o : List Bytes → Bool) (dir : List Bytes) : List (List Bytes) :=
  if o dir then [dir ++ [b!"package.mo"]] else []

/-- The files visited in a directory and below it, and whether the end is reached. -/
def visits (o : List Bytes → Bool) : Listing → List Bytes → List (List Bytes) × Bool
  | .done, _ => ([], true)
  | .file n rest, dir =>
    if eqNoCase n b!"package.mo" then visits o rest dir
    else if isModelicaFile n then ((dir ++ [n]) :: (visits o rest dir).1, (visits o rest dir).2)
    else visits o rest dir
  | .dir n sub rest, dir =>
    if eqNoCase n b!"package.mo" then visits o rest dir
    else if (visits o sub (dir ++ [n])).2 then
      (pkgPath o (dir ++ [n]) ++ (visits o sub (dir ++ [n])).1 ++ (visits o rest dir).1, (visits o rest dir).2)
    else (pkgPath o (dir ++ [n]) ++ (visits o sub (dir ++ [n])).1, false)
  | .locked n rest, dir =>
    if eqNoCase n b!"package.mo" then visits o rest dir else (pkgPath o (dir ++ [n]), false)
  | .other _ rest, dir => visits o rest dir

theorem encryptPackage_eq (env : PackEnv) (e : CrEnv) (lib : Bytes) (dir : List Bytes) (s : EncState) :
    encryptPackage env e lib dir s = encSeq env e lib (pkgPath (opens env lib s.fs) dir) s := by
  unfold encryptPackage pkgPath opens
  cases h : env.openRead s.fs (lib :: dir ++ [b!"package.mo"]) with
  | none => simp [encSeq]
  | some r =>
    simp only [Option.isSome_some, if_true, encSeq]
    cases encryptOne env e lib (dir ++ [b!"package.mo"]) s with
    | ub k => rfl
    | ok r => obtain ⟨s', ok⟩ := r; cases ok <;> rfl

theorem encryptEntries_eq (env : PackEnv) (e : CrEnv) (lib : Bytes) (fs : Staged) (l : Listing)
    (dir : List Bytes) (s : EncState) (hk : KeepsSources fs s.fs) :
    encryptEntries env e lib l dir s = (do
      let r ← encSeq env e lib (visits (opens env lib fs) l dir).1 s
      .ok (r.1, r.2 && (visits (opens env lib fs) l dir).2)) := by
  induction l generalizing dir s with
  | done => simp [encryptEntries, visits, encSeq]
  | file n rest ih =>
    unfold encryptEntries visits
    split
    · exact ih dir s hk
    · split
      · simp only [encSeq]
        cases h : encryptOne env e lib (dir ++ [n]) s with
        | ub k => rfl
        | ok r =>
          obtain ⟨s', ok⟩ := r
          cases ok with
          | false => simp
          | true => simpa using ih dir s' (hk.one h)
      · exact ih dir s hk
  | dir n sub rest ih1 ih2 =>
    unfold encryptEntries visits
    split
    · exact ih2 dir s hk
    · rw [encryptPackage_eq]
      have ho : opens env lib s.fs = opens env lib fs := funext fun d => hk.opens d
      rw [ho]
      cases h : encSeq env e lib (pkgPath (opens env lib fs) (dir ++ [n])) s with
      | ub k =>
        have : ∀ b, encSeq env e lib (pkgPath (opens env lib fs) (dir ++ [n]) ++ b) s = .ub k := by
          intro b
          rw [encSeq_append, h]
          rfl
        split <;> simp [this, List.append_assoc]
      | ok r =>
        obtain ⟨s1, ok1⟩ := r
        have hk1 := hk.seq h
        cases ok1 with
        | false =>
          have : ∀ b, encSeq env e lib (pkgPath (opens env lib fs) (dir ++ [n]) ++ b) s = .ok (s1, false) := by
            intro b
            rw [encSeq_append, h]
            simp
          split <;> simp [this, List.append_assoc]
        | true =>
          have hp : ∀ b, encSeq env e lib (pkgPath (opens env lib fs) (dir ++ [n]) ++ b) s =
              encSeq env e lib b s1 := by
            intro b
            rw [encSeq_append, h]
            simp
          simp only [Res.bind_ok, if_true]
          rw [ih1 (dir ++ [n]) s1 hk1]
          cases h2 : encSeq env e lib (visits (opens env lib fs) sub (dir ++ [n])).1 s1 with
          | ub k =>
            have : ∀ b, encSeq env e lib ((visits (opens env lib fs) sub (dir ++ [n])).1 ++ b) s1 = .ub k := by
              intro b
              rw [encSeq_append, h2]
              rfl
            split <;> simp [this, hp, h2, List.append_assoc]
          | ok r =>
            obtain ⟨s2, ok2⟩ := r
            have hk2 := hk1.seq h2
            cases ok2 with
            | false =>
              have : ∀ b, encSeq env e lib ((visits (opens env lib fs) sub (dir ++ [n])).1 ++ b) s1 =
                  .ok (s2, false) := by
                intro b
                rw [encSeq_append, h2]
                simp
              split <;> simp [this, hp, h2, List.append_assoc]
            | true =>
              have hp2 : ∀ b, encSeq env e lib ((visits (opens env lib fs) sub (dir ++ [n])).1 ++ b) s1 =
                  encSeq env e lib b s2 := by
                intro b
                rw [encSeq_append, h2]
                simp
              by_cases hv : (visits (opens env lib fs) sub (dir ++ [n])).2 = true
              · simp only [Res.bind_ok, hv, Bool.and_self, if_true]
                rw [ih2 dir s2 hk2, List.append_assoc, hp, hp2]
              · simp [hv, hp, h2]
  | locked n rest ih =>
    unfold encryptEntries visits
    split
    · exact ih dir s hk
    · rw [encryptPackage_eq]
      have ho : opens env lib s.fs = opens env lib fs := funext fun d => hk.opens d
      rw [ho]
      cases encSeq env e lib (pkgPath (opens env lib fs) (dir ++ [n])) s with
      | ub k => rfl
      | ok r => simp
  | other n rest ih =>
    unfold encryptEntries visits
    exact ih dir s hk

/-- All files visited in a library. -/
def allVisits (env : PackEnv) (lib : Bytes) (fs : Staged) : List (List Bytes) × Bool :=
  match env.encryptWalk fs with
  | some l => (pkgPath (opens env lib fs) [] ++ (visits (opens env lib fs) l []).1,
      (visits (opens env lib fs) l []).2)
  | none => (pkgPath (opens env lib fs) [], false)

theorem encryptDirectory_eq (env : PackEnv) (e : CrEnv) (lib : Bytes) (fs : Staged) :
    encryptDirectory env e lib fs = (do
      let r ← encSeq env e lib (allVisits env lib fs).1 ⟨[], fs, []⟩
      .ok (r.1, r.2 && (allVisits env lib fs).2)) := by
  unfold encryptDirectory allVisits
  rw [encryptPackage_eq]
  dsimp only
  cases h : encSeq env e lib (pkgPath (opens env lib fs) []) ⟨[], fs, []⟩ with
  | ub k =>
    cases env.encryptWalk fs with
    | none => simp [h]
    | some l =>
      dsimp only
      rw [encSeq_append, h]
      rfl
  | ok r =>
    obtain ⟨s1, ok1⟩ := r
    have hk1 : KeepsSources fs s1.fs := KeepsSources.seq (s := ⟨[], fs, []⟩) (fun q _ => rfl) h
    cases ok1 with
    | false =>
      cases env.encryptWalk fs with
      | none => simp [h]
      | some l =>
        dsimp only
        rw [encSeq_append, h]
        simp
    | true =>
      cases env.encryptWalk fs with
      | none => simp [h]
      | some l =>
        dsimp only
        rw [encSeq_append, h]
        simp only [Res.bind_ok, if_true]
        exact encryptEntries_eq env e lib fs l [] s1 hk1

/-! ## The files visited -/

theorem encSeq_log {env : PackEnv} {e : CrEnv} {lib : Bytes} {ps : List (List Bytes)} {s s' : EncState}
    {ok : Bool} (h : encSeq env e lib ps s = .ok (s', ok)) :
    ∃ done, done <+: ps ∧ s'.log = s.log ++ done ∧ (ok = true → done = ps) := by
  induction ps generalizing s with
  | nil =>
    simp only [encSeq, Res.ok.injEq, Prod.mk.injEq] at h
    exact ⟨[], List.prefix_rfl, by simp [← h.1], fun _ => rfl⟩
  | cons p ps ih =>
    unfold encSeq at h
    rw [Res.bind_eq_ok] at h
    obtain ⟨⟨s1, ok1⟩, h1, h⟩ := h
    obtain ⟨content, bad, t, out, -, -, hs1⟩ := encryptOne_ok h1
    have hlog : s1.log = s.log ++ [p] := by rw [hs1]
    dsimp only at h
    split at h
    · obtain ⟨done, h2, h3, h4⟩ := ih h
      refine ⟨p :: done, ?_, ?_, fun ho => by rw [h4 ho]⟩
      · exact List.cons_prefix_cons.2 ⟨rfl, h2⟩
      · rw [h3, hlog]
        simp
    · simp only [Res.ok.injEq, Prod.mk.injEq] at h
      refine ⟨[p], List.cons_prefix_cons.2 ⟨rfl, List.nil_prefix⟩, by rw [← h.1, hlog], ?_⟩
      intro ho
      rw [ho] at h
      simp at h

/-- Everything visited in `dir` lies below it, and is an entry with a Modelica name or a package file. -/
theorem visits_mem (o : List Bytes → Bool) (l : Listing) (dir : List Bytes) :
    ∀ p ∈ (visits o l dir).1, ∃ q, p = dir ++ q ∧ q ≠ [] ∧
      (((q, Kind.file) ∈ entries l ∧ isModelicaFile (nameOf q) = true ∧
          eqNoCase (nameOf q) b!"package.mo" = false) ∨
        ∃ ds, ds ≠ [] ∧ q = ds ++ [b!"package.mo"] ∧ o (dir ++ ds) = true ∧
          ((ds, Kind.dir) ∈ entries l ∨ (ds, Kind.locked) ∈ entries l)) := by
  induction l generalizing dir with
  | done => simp [visits]
  | file n rest ih =>
    have lift : ∀ p ∈ (visits o rest dir).1, ∃ q, p = dir ++ q ∧ q ≠ [] ∧
      (((q, Kind.file) ∈ entries (.file n rest) ∧ isModelicaFile (nameOf q) = true ∧
          eqNoCase (nameOf q) b!"package.mo" = false) ∨
        ∃ ds, ds ≠ [] ∧ q = ds ++ [b!"package.mo"] ∧ o (dir ++ ds) = true ∧
          ((ds, Kind.dir) ∈ entries (.file n rest) ∨ (ds, Kind.locked) ∈ entries (.file n rest))) := by
      intro p hp
      obtain ⟨q, h1, h2, h3⟩ := ih dir p hp
      refine ⟨q, h1, h2, ?_⟩
      rcases h3 with ⟨h3, h4⟩ | ⟨ds, h3, h4, h5, h6⟩
      · exact Or.inl ⟨List.mem_cons_of_mem _ h3, h4⟩
      · exact Or.inr ⟨ds, h3, h4, h5, h6.imp (List.mem_cons_of_mem _) (List.mem_cons_of_mem _)⟩
    intro p hp
    unfold visits at hp
    split at hp
    · exact lift p hp
    · rename_i hnp
      split at hp
      · rename_i hm
        simp only [List.mem_cons] at hp
        rcases hp with rfl | hp
        · exact ⟨[n], rfl, by simp, Or.inl ⟨List.mem_cons_self, by simpa [nameOf] using hm,
            by simpa [nameOf] using hnp⟩⟩
        · exact lift p hp
      · exact lift p hp
  | dir n sub rest ih1 ih2 =>
    have lift : ∀ p ∈ (visits o rest dir).1, ∃ q, p = dir ++ q ∧ q ≠ [] ∧
      (((q, Kind.file) ∈ entries (.dir n sub rest) ∧ isModelicaFile (nameOf q) = true ∧
          eqNoCase (nameOf q) b!"package.mo" = false) ∨
        ∃ ds, ds ≠ [] ∧ q = ds ++ [b!"package.mo"] ∧ o (dir ++ ds) = true ∧
          ((ds, Kind.dir) ∈ entries (.dir n sub rest) ∨ (ds, Kind.locked) ∈ entries (.dir n sub rest))) := by
      have up : ∀ e ∈ entries rest, e ∈ entries (.dir n sub rest) := fun e he =>
        List.mem_append_right _ he
      intro p hp
      obtain ⟨q, h1, h2, h3⟩ := ih2 dir p hp
      refine ⟨q, h1, h2, ?_⟩
      rcases h3 with ⟨h3, h4⟩ | ⟨ds, h3, h4, h5, h6⟩
      · exact Or.inl ⟨up _ h3, h4⟩
      · exact Or.inr ⟨ds, h3, h4, h5, h6.imp (up _) (up _)⟩
    have lift1 : ∀ p ∈ pkgPath o (dir ++ [n]) ++ (visits o sub (dir ++ [n])).1, ∃ q, p = dir ++ q ∧ q ≠ [] ∧
      (((q, Kind.file) ∈ entries (.dir n sub rest) ∧ isModelicaFile (nameOf q) = true ∧
          eqNoCase (nameOf q) b!"package.mo" = false) ∨
        ∃ ds, ds ≠ [] ∧ q = ds ++ [b!"package.mo"] ∧ o (dir ++ ds) = true ∧
          ((ds, Kind.dir) ∈ entries (.dir n sub rest) ∨ (ds, Kind.locked) ∈ entries (.dir n sub rest))) := by
      intro p hp
      have up : ∀ q k, (q, k) ∈ entries sub → (n :: q, k) ∈ entries (.dir n sub rest) := fun q k he =>
        List.mem_append_left _ (List.mem_cons_of_mem _ (List.mem_map.2 ⟨(q, k), he, rfl⟩))
      rcases List.mem_append.1 hp with hp | hp
      · unfold pkgPath at hp
        split at hp
        · rename_i ho
          simp only [List.mem_singleton] at hp
          exact ⟨[n, b!"package.mo"], by simp [hp], by simp, Or.inr ⟨[n], by simp, rfl, ho,
            Or.inl (List.mem_append_left _ List.mem_cons_self)⟩⟩
        · simp at hp
      · obtain ⟨q, h1, h2, h3⟩ := ih1 (dir ++ [n]) p hp
        refine ⟨n :: q, by simp [h1], by simp, ?_⟩
        rcases h3 with ⟨h3, h4⟩ | ⟨ds, h3, h4, h5, h6⟩
        · exact Or.inl ⟨up _ _ h3, by rw [nameOf_cons _ h2]; exact h4⟩
        · exact Or.inr ⟨n :: ds, by simp, by simp [h4], by simpa using h5, h6.imp (up _ _) (up _ _)⟩
    intro p hp
    unfold visits at hp
    split at hp
    · exact lift p hp
    · split at hp
      · rcases List.mem_append.1 hp with hp | hp
        · exact lift1 p hp
        · exact lift p hp
      · exact lift1 p hp
  | locked n rest ih =>
    intro p hp
    unfold visits at hp
    split at hp
    · obtain ⟨q, h1, h2, h3⟩ := ih dir p hp
      refine ⟨q, h1, h2, ?_⟩
      rcases h3 with ⟨h3, h4⟩ | ⟨ds, h3, h4, h5, h6⟩
      · exact Or.inl ⟨List.mem_cons_of_mem _ h3, h4⟩
      · exact Or.inr ⟨ds, h3, h4, h5, h6.imp (List.mem_cons_of_mem _) (List.mem_cons_of_mem _)⟩
    · unfold pkgPath at hp
      split at hp
      · rename_i ho
        simp only [List.mem_singleton] at hp
        exact ⟨[n, b!"package.mo"], by simp [hp], by simp, Or.inr ⟨[n], by simp, rfl, ho,
          Or.inr List.mem_cons_self⟩⟩
      · simp at hp
  | other n rest ih =>
    intro p hp
    unfold visits at hp
    obtain ⟨q, h1, h2, h3⟩ := ih dir p hp
    refine ⟨q, h1, h2, ?_⟩
    rcases h3 with ⟨h3, h4⟩ | ⟨ds, h3, h4, h5, h6⟩
    · exact Or.inl ⟨List.mem_cons_of_mem _ h3, h4⟩
    · exact Or.inr ⟨ds, h3, h4, h5, h6.imp (List.mem_cons_of_mem _) (List.mem_cons_of_mem _)⟩

/-! ## Their order -/

/-- In the list of visits, the package file of every directory strictly below `dir` that has one comes
before everything else in and below that directory. -/
def Ordered (o : List Bytes → Bool) (dir : List Bytes) (vis : List (List Bytes)) : Prop :=
  ∀ a p b, vis = a ++ p :: b → ∀ d r, d ≠ [] → r ≠ [] → p = dir ++ d ++ r → r ≠ [b!"package.mo"] →
    o (dir ++ d) = true → dir ++ d ++ [b!"package.mo"] ∈ a

theorem Ordered.append {o : List Bytes → Bool} {dir : List Bytes} {v w : List (List Bytes)}
    (hv : Ordered o dir v) (hw : Ordered o dir w) : Ordered o dir (v ++ w) := by
  intro a p b h d r hd hr hp hpk ho
  rcases List.append_eq_append_iff.1 h with ⟨c, h1, h2⟩ | ⟨c, h1, h2⟩
  · rw [h1]
    exact List.mem_append_right _ (hw c p b h2 d r hd hr hp hpk ho)
  · cases c with
    | nil =>
      simp only [List.append_nil] at h1
      rw [← h1]
      have := hw [] p b (by simpa using h2.symm) d r hd hr hp hpk ho
      simp at this
    | cons x c =>
      simp only [List.cons_append, List.cons.injEq] at h2
      obtain ⟨rfl, h2⟩ := h2
      exact hv a p c h1 d r hd hr hp hpk ho

theorem Ordered.sub {o : List Bytes → Bool} {dir : List Bytes} {n : Bytes} {w : List (List Bytes)}
    (hw : Ordered o (dir ++ [n]) w) (hm : ∀ p ∈ w, ∃ q, p = dir ++ [n] ++ q) :
    Ordered o dir (pkgPath o (dir ++ [n]) ++ w) := by
  intro a p b h d r hd hr hp hpk ho
  have hpn : ∃ q, p = dir ++ [n] ++ q := by
    have : p ∈ pkgPath o (dir ++ [n]) ++ w := by rw [h]; simp
    rcases List.mem_append.1 this with h' | h'
    · unfold pkgPath at h'
      split at h'
      · simp only [List.mem_singleton] at h'
        exact ⟨[b!"package.mo"], h'⟩
      · simp at h'
    · exact hm p h'
  obtain ⟨q, hq⟩ := hpn
  obtain ⟨x, d', rfl⟩ : ∃ x d', d = x :: d' := by
    cases d with
    | nil => exact absurd rfl hd
    | cons x d' => exact ⟨x, d', rfl⟩
  rw [hq] at hp
  simp only [List.append_assoc, List.append_cancel_left_eq, List.cons_append, List.nil_append,
    List.cons.injEq] at hp
  obtain ⟨rfl, hp⟩ := hp
  have e1 : dir ++ n :: d' = dir ++ [n] ++ d' := by simp
  rw [e1] at ho ⊢
  rcases List.append_eq_append_iff.1 h with ⟨c, h1, h2⟩ | ⟨c, h1, h2⟩
  · -- p is in w
    rw [h1]
    by_cases hd' : d' = []
    · subst hd'
      rw [List.append_nil] at ho ⊢
      apply List.mem_append_left
      simp [pkgPath, ho]
    · exact List.mem_append_right _ (hw c p b h2 d' r hd' hr (by rw [hq, hp]; simp) hpk ho)
  · cases c with
    | nil =>
      simp only [List.append_nil] at h1
      rw [← h1]
      by_cases hd' : d' = []
      · subst hd'
        rw [List.append_nil] at ho ⊢
        simp [pkgPath, ho]
      · have := hw [] p b (by simpa using h2.symm) d' r hd' hr (by rw [hq, hp]; simp) hpk ho
        simp at this
    | cons x c =>
      simp only [List.cons_append, List.cons.injEq] at h2
      obtain ⟨rfl, h2⟩ := h2
      exfalso
      unfold pkgPath at h1
      split at h1
      · have hpx : p = dir ++ [n] ++ [b!"package.mo"] := by
          have : p ∈ [dir ++ [n] ++ [b!"package.mo"]] := by rw [h1]; simp
          simpa using this
        rw [hq, List.append_cancel_left_eq] at hpx
        subst hpx
        cases d' with
        | nil => exact hpk hp.symm
        | cons y d' =>
          have := congrArg List.length hp
          have hr' : 0 < r.length := List.length_pos_iff.2 hr
          simp only [List.length_append, List.length_cons, List.length_nil] at this
          omega
      · simp at h1

theorem visits_ordered (o : List Bytes → Bool) (l : Listing) (dir : List Bytes) :
    Ordered o dir (visits o l dir).1 := by
  induction l generalizing dir with
  | done =>
    intro a p b h
    simp [visits] at h
  | file n rest ih =>
    unfold visits
    split
    · exact ih dir
    · split
      · have h1 : Ordered o dir [dir ++ [n]] := by
          intro a p b h d r hd hr hp hpk ho
          have hp' : p = dir ++ [n] := by
            have : p ∈ [dir ++ [n]] := by rw [h]; simp
            simpa using this
          rw [hp'] at hp
          have := congrArg List.length hp
          have hr' : 0 < r.length := List.length_pos_iff.2 hr
          have hd' : 0 < d.length := List.length_pos_iff.2 hd
          simp at this
          omega
        exact h1.append (ih dir)
      · exact ih dir
  | dir n sub rest ih1 ih2 =>
    have hs := (ih1 (dir ++ [n])).sub fun p hp => by
      obtain ⟨q, h, -⟩ := visits_mem o sub (dir ++ [n]) p hp
      exact ⟨q, h⟩
    unfold visits
    split
    · exact ih2 dir
    · split
      · exact hs.append (ih2 dir)
      · exact hs
  | locked n rest ih =>
    unfold visits
    split
    · exact ih dir
    · have : Ordered o (dir ++ [n]) [] := by
        intro a p b h
        simp at h
      have := this.sub (by simp)
      simpa using this
  | other n rest ih =>
    unfold visits
    exact ih dir

theorem entries_head (l : Listing) : ∀ p ∈ (entries l).map (·.1), ∀ n q, p = n :: q →
    [n] ∈ (entries l).map (·.1) := by
  induction l with
  | done => simp [entries]
  | file m rest ih =>
    intro p hp n q h
    simp only [entries, List.map_cons, List.mem_cons] at hp ⊢
    rcases hp with hp | hp
    · rw [h] at hp
      left
      simpa using (List.cons.inj hp).1
    · exact Or.inr (ih p hp n q h)
  | locked m rest ih =>
    intro p hp n q h
    simp only [entries, List.map_cons, List.mem_cons] at hp ⊢
    rcases hp with hp | hp
    · rw [h] at hp
      left
      simpa using (List.cons.inj hp).1
    · exact Or.inr (ih p hp n q h)
  | other m rest ih =>
    intro p hp n q h
    simp only [entries, List.map_cons, List.mem_cons] at hp ⊢
    rcases hp with hp | hp
    · rw [h] at hp
      left
      simpa using (List.cons.inj hp).1
    · exact Or.inr (ih p hp n q h)
  | dir m sub rest ih1 ih2 =>
    intro p hp n q h
    simp only [entries, List.cons_append, List.map_cons, List.map_append, List.map_map, List.mem_cons,
      List.mem_append] at hp ⊢
    rcases hp with hp | hp | hp
    · rw [h] at hp
      left
      simpa using (List.cons.inj hp).1
    · obtain ⟨e, -, he⟩ := List.mem_map.1 hp
      rw [h] at he
      left
      simpa using (List.cons.inj he).1.symm
    · exact Or.inr (Or.inr (ih2 p hp n q h))

theorem visits_head (o : List Bytes → Bool) (l : Listing) (dir : List Bytes) (n : Bytes) (q : List Bytes)
    (h : dir ++ n :: q ∈ (visits o l dir).1) : [n] ∈ (entries l).map (·.1) := by
  obtain ⟨q', h1, h2, h3⟩ := visits_mem o l dir _ h
  rw [List.append_cancel_left_eq] at h1
  rcases h3 with ⟨h3, -⟩ | ⟨ds, h3, h4, -, h5⟩
  · exact entries_head l _ (List.mem_map.2 ⟨_, h3, rfl⟩) n q h1.symm
  · obtain ⟨x, ds', rfl⟩ : ∃ x d', ds = x :: d' := by
      cases ds with
      | nil => exact absurd rfl h3
      | cons x d' => exact ⟨x, d', rfl⟩
    rw [h4] at h1
    simp only [List.cons_append, List.cons.injEq] at h1
    rcases h5 with h5 | h5
    · exact entries_head l _ (List.mem_map.2 ⟨_, h5, rfl⟩) n ds' (by rw [h1.1])
    · exact entries_head l _ (List.mem_map.2 ⟨_, h5, rfl⟩) n ds' (by rw [h1.1])

theorem eqNoCase_package : eqNoCase b!"package.mo" b!"package.mo" = true := by decide

/-- No package file of the directory itself among the visits. -/
theorem visits_not_package (o : List Bytes → Bool) (l : Listing) (dir : List Bytes) :
    dir ++ [b!"package.mo"] ∉ (visits o l dir).1 := by
  intro h
  obtain ⟨q, h1, h2, h3⟩ := visits_mem o l dir _ h
  rw [List.append_cancel_left_eq] at h1
  subst h1
  rcases h3 with ⟨-, -, h3⟩ | ⟨ds, h3, h4, -⟩
  · simp [nameOf, eqNoCase_package] at h3
  · cases ds with
    | nil => exact h3 rfl
    | cons x ds =>
      have := congrArg List.length h4
      simp at this

theorem pkg_nodup (o : List Bytes → Bool) (l : Listing) (dir : List Bytes)
    (h : (visits o l dir).1.Nodup) : (pkgPath o dir ++ (visits o l dir).1).Nodup := by
  unfold pkgPath
  split
  · rw [List.cons_append, List.nil_append, List.nodup_cons]
    exact ⟨visits_not_package o l dir, h⟩
  · simpa using h

theorem visits_nodup (o : List Bytes → Bool) (l : Listing) (dir : List Bytes) (hn : NoRepeats l) :
    (visits o l dir).1.Nodup := by
  induction l generalizing dir with
  | done => simp [visits]
  | file n rest ih =>
    obtain ⟨h1, h2⟩ := noRepeats_file hn
    unfold visits
    split
    · exact ih dir h2
    · split
      · rw [List.nodup_cons]
        exact ⟨fun h => h1 (visits_head o rest dir n [] h), ih dir h2⟩
      · exact ih dir h2
  | dir n sub rest ih1 ih2 =>
    obtain ⟨h1, h2, h3, -⟩ := noRepeats_dir hn
    unfold visits
    split
    · exact ih2 dir h2
    · have hs := pkg_nodup o sub (dir ++ [n]) (ih1 (dir ++ [n]) h1)
      split
      · rw [List.nodup_append]
        refine ⟨hs, ih2 dir h2, ?_⟩
        intro p hp q hq e
        subst e
        have : ∃ r, p = dir ++ n :: r := by
          rcases List.mem_append.1 hp with hp | hp
          · unfold pkgPath at hp
            split at hp
            · simp only [List.mem_singleton] at hp
              exact ⟨_, by rw [hp]; simp; rfl⟩
            · simp at hp
          · obtain ⟨r, hr, -⟩ := visits_mem o sub (dir ++ [n]) p hp
            exact ⟨r, by rw [hr]; simp⟩
        obtain ⟨r, rfl⟩ := this
        exact h3 (visits_head o rest dir n r hq)
      · exact hs
  | locked n rest ih =>
    have h2 : NoRepeats rest := by
      unfold NoRepeats entries at hn
      rw [List.map_cons, List.nodup_cons] at hn
      exact hn.2
    unfold visits
    split
    · exact ih dir h2
    · unfold pkgPath
      split <;> simp
  | other n rest ih =>
    have h2 : NoRepeats rest := by
      unfold NoRepeats entries at hn
      rw [List.map_cons, List.nodup_cons] at hn
      exact hn.2
    unfold visits
    exact ih dir h2

/-- Nothing is left out. -/
theorem visits_complete (o : List Bytes → Bool) (l : Listing) (dir : List Bytes)
    (hok : (visits o l dir).2 = true) (q : List Bytes) (hq : (q, Kind.file) ∈ entries l)
    (hd : ∀ d ∈ q.dropLast, eqNoCase d b!"package.mo" = false)
    (hm : isModelicaFile (nameOf q) = true)
    (hp : eqNoCase (nameOf q) b!"package.mo" = true →
      nameOf q = b!"package.mo" ∧ q.dropLast ≠ [] ∧ o (dir ++ q.dropLast) = true) :
    dir ++ q ∈ (visits o l dir).1 := by
  induction l generalizing dir q with
  | done => simp [entries] at hq
  | file n rest ih =>
    unfold visits at hok ⊢
    simp only [entries, List.mem_cons, Prod.mk.injEq, and_true] at hq
    rcases hq with rfl | hq
    · have hn : nameOf [n] = n := rfl
      rw [hn] at hm hp
      split
      · rename_i hc
        exact absurd rfl (hp hc).2.1
      · simp
    · split at hok
      · rename_i hc
        rw [if_pos hc]
        exact ih dir hok q hq hd hm hp
      · rename_i hc
        rw [if_neg hc]
        split at hok
        · rename_i hc
          rw [if_pos hc]
          exact List.mem_cons_of_mem _ (ih dir hok q hq hd hm hp)
        · rename_i hc
          rw [if_neg hc]
          exact ih dir hok q hq hd hm hp
  | dir n sub rest ih1 ih2 =>
    unfold visits at hok ⊢
    simp only [entries, List.cons_append, List.mem_cons, Prod.mk.injEq, reduceCtorEq, and_false, false_or,
      List.mem_append, List.mem_map] at hq
    split at hok
    · rename_i hc
      rw [if_pos hc]
      rcases hq with ⟨e, he, hq, -⟩ | hq
      · have hne : e.1 ≠ [] := entries_ne_nil sub e he
        have : n ∈ q.dropLast := by
          rw [← hq, List.dropLast_cons_of_ne_nil hne]
          simp
        rw [hd n this] at hc
        simp at hc
      · exact ih2 dir hok q hq hd hm hp
    · rename_i hc
      rw [if_neg hc]
      split at hok
      · rename_i hs
        rw [if_pos hs]
        rcases hq with ⟨e, he, hq, hk⟩ | hq
        · apply List.mem_append_left
          have hne : e.1 ≠ [] := entries_ne_nil sub e he
          rw [← hq, List.dropLast_cons_of_ne_nil hne] at hd
          rw [← hq, nameOf_cons _ hne] at hm
          rw [← hq, nameOf_cons _ hne, List.dropLast_cons_of_ne_nil hne] at hp
          by_cases hpp : eqNoCase (nameOf e.1) b!"package.mo" = true ∧ e.1.dropLast = []
          · obtain ⟨h1, h2⟩ := hpp
            obtain ⟨h3, -, h4⟩ := hp h1
            have he1 : e.1 = [b!"package.mo"] := by
              have := List.dropLast_append_getLast hne
              rw [h2] at this
              rw [← this]
              have hl : e.1.getLast hne = nameOf e.1 := by
                unfold nameOf
                rw [List.getLastD_eq_getLast?, List.getLast?_eq_some_getLast hne]
                rfl
              rw [hl, h3]
              rfl
            apply List.mem_append_left
            rw [h2] at h4
            unfold pkgPath
            rw [if_pos h4, ← hq, he1]
            simp
          · apply List.mem_append_right
            have := ih1 (dir ++ [n]) hs e.1 (by rw [← hk]; exact he)
              (fun d hd' => hd d (List.mem_cons_of_mem _ hd')) hm (fun h => by
                obtain ⟨h1, h2, h3⟩ := hp h
                exact ⟨h1, fun h' => hpp ⟨h, h'⟩, by simpa using h3⟩)
            rw [← hq]
            simpa using this
        · exact List.mem_append_right _ (ih2 dir hok q hq hd hm hp)
      · simp at hok
  | locked n rest ih =>
    unfold visits at hok ⊢
    simp only [entries, List.mem_cons, Prod.mk.injEq, reduceCtorEq, and_false, false_or] at hq
    split at hok
    · rename_i hc
      rw [if_pos hc]
      exact ih dir hok q hq hd hm hp
    · simp at hok
  | other n rest ih =>
    unfold visits at hok ⊢
    simp only [entries, List.mem_cons, Prod.mk.injEq, reduceCtorEq, and_false, false_or] at hq
    exact ih dir hok q hq hd hm hp

/-! ## Results -/

theorem joinPath_eq (p : List Bytes) : joinPath p = relPath p := by
  induction p with
  | nil => rfl
  | cons n p ih =>
    cases p with
    | nil => rfl
    | cons m p => rw [joinPath, relPath, ih]

/-- The encryption job for a file. -/
def jobOf (env : PackEnv) (lib : Bytes) (fs : Staged) (p : List Bytes) : Job :=
  ⟨p.dropLast, nameOf p, env.iv p, env.mask p, match fs.get (lib :: p) with
    | some (.file c) => c
    | _ => []⟩

theorem dropLast_nameOf {p : List Bytes} (h : p ≠ []) : p.dropLast ++ [nameOf p] = p := by
  have hl : nameOf p = p.getLast h := by
    unfold nameOf
    rw [List.getLastD_eq_getLast?, List.getLast?_eq_some_getLast h]
    rfl
  rw [hl]
  exact List.dropLast_append_getLast h

theorem jobOf_path (env : PackEnv) (lib : Bytes) (fs : Staged) {p : List Bytes} (h : p ≠ []) :
    (jobOf env lib fs p).path = joinPath p := by
  unfold Job.path jobOf
  rw [dropLast_nameOf h, joinPath_eq]

theorem encryptedPath_inj {p q : List Bytes} (hp : p ≠ []) (hq : q ≠ [])
    (h : encryptedPath p = encryptedPath q) : p = q := by
  unfold encryptedPath at h
  have h1 := List.append_inj' h rfl
  rw [← dropLast_nameOf hp, ← dropLast_nameOf hq, h1.1]
  have : nameOf p ++ b!"c" = nameOf q ++ b!"c" := by
    have := h1.2
    simp only [List.cons.injEq, and_true] at this
    exact this
  rw [List.append_cancel_right this]

/-- What a successful sequence gives. -/
theorem encSeq_jobs {env : PackEnv} {e : CrEnv} {lib : Bytes} (fs : Staged) {ps : List (List Bytes)}
    {s s' : EncState} (h : encSeq env e lib ps s = .ok (s', true)) (hk : KeepsSources fs s.fs)
    (hps : ∀ p ∈ ps, p ≠ [] ∧ ModelicaName (nameOf p)) (hn : ps.Nodup) :
    ∃ outs, encryptAll e s.table (ps.map (jobOf env lib fs)) = .ok (some outs) ∧
      (∀ p ∈ ps, ∃ c, fs.get (lib :: p) = some (.file c)) ∧
      List.Forall₂ (fun p o => o.1 = joinPath p ++ b!"c" ∧
        s'.fs.get (lib :: encryptedPath p) = some (.file o.2)) ps outs ∧
      ∀ q, (∀ p ∈ ps, q ≠ lib :: encryptedPath p) → s'.fs.get q = s.fs.get q := by
  induction ps generalizing s with
  | nil =>
    simp only [encSeq, Res.ok.injEq, Prod.mk.injEq, and_true] at h
    subst h
    exact ⟨[], rfl, by simp, .nil, fun _ _ => rfl⟩
  | cons p ps ih =>
    unfold encSeq at h
    rw [Res.bind_eq_ok] at h
    obtain ⟨⟨s1, ok1⟩, h1, h⟩ := h
    dsimp only at h
    split at h
    · rename_i hok1
      subst hok1
      obtain ⟨content, bad, t, out, ho, hc, hs1⟩ := encryptOne_ok h1
      obtain ⟨hb, hc2⟩ := crEncrypt_success hc
      subst hb
      have hp := hps p List.mem_cons_self
      have hnp : nameOf (lib :: p) = nameOf p := nameOf_cons lib hp.1
      have hsrc : fs.get (lib :: p) = some (.file content) := by
        rw [← hk (lib :: p) (by rw [hnp]; exact hp.2)]
        unfold PackEnv.openRead at ho
        split at ho
        · split at ho
          · rename_i c hc
            simp only [Option.some.injEq, Prod.mk.injEq] at ho
            rw [hc, ho.1]
          · simp at ho
          · simp at ho
        · simp at ho
      rw [List.nodup_cons] at hn
      obtain ⟨outs, h2, h3, h4, h5⟩ := ih h (hk.one h1) (fun q hq => hps q (List.mem_cons_of_mem _ hq)) hn.2
      have hjob : jobOf env lib fs p = ⟨p.dropLast, nameOf p, env.iv p, env.mask p, content⟩ := by
        unfold jobOf
        rw [hsrc]
      refine ⟨(joinPath p ++ b!"c", out) :: outs, ?_, ?_, .cons ⟨rfl, ?_⟩ h4, ?_⟩
      · rw [List.map_cons, encryptAll, jobOf_path env lib fs hp.1, hjob]
        dsimp only
        rw [hc2, Res.bind_ok]
        simp only [if_true]
        rw [hs1] at h2
        rw [h2]
        rfl
      · intro q hq
        rcases List.mem_cons.1 hq with rfl | hq
        · exact ⟨content, hsrc⟩
        · exact h3 q hq
      · rw [h5 _ fun q hq he => by
          simp only [List.cons.injEq, true_and] at he
          have := encryptedPath_inj hp.1 (hps q (List.mem_cons_of_mem _ hq)).1 he
          exact hn.1 (this ▸ hq), hs1, Staged.get_set, if_pos rfl]
      · intro q hq
        rw [h5 q fun p' hp' => hq p' (List.mem_cons_of_mem _ hp'), hs1, Staged.get_set,
          if_neg (hq p List.mem_cons_self)]
    · rename_i hok1
      simp only [Res.ok.injEq, Prod.mk.injEq] at h
      simp at h

/-- Package files come first. -/
theorem allVisits_ordered (env : PackEnv) (lib : Bytes) (fs : Staged) (a : List (List Bytes)) (p : List Bytes)
    (b : List (List Bytes)) (h : (allVisits env lib fs).1 = a ++ p :: b) (ds r : List Bytes) (hr : r ≠ [])
    (hp : p = ds ++ r) (hpk : r ≠ [b!"package.mo"]) (ho : opens env lib fs ds = true) :
    ds ++ [b!"package.mo"] ∈ a := by
  have key : ∃ v, (allVisits env lib fs).1 = pkgPath (opens env lib fs) [] ++ v ∧
      Ordered (opens env lib fs) [] v := by
    unfold allVisits
    split
    · exact ⟨_, rfl, visits_ordered _ _ _⟩
    · refine ⟨[], by simp, ?_⟩
      intro a p b h
      simp at h
  obtain ⟨v, h1, h2⟩ := key
  rw [h1] at h
  by_cases hds : ds = []
  · subst hds
    unfold pkgPath at h
    rw [if_pos ho] at h
    cases a with
    | nil =>
      simp only [List.nil_append, List.cons_append, List.cons.injEq] at h
      rw [List.nil_append] at hp
      exact absurd (hp ▸ h.1.symm) hpk
    | cons x a =>
      simp only [List.nil_append, List.cons_append, List.cons.injEq] at h
      rw [← h.1]
      simp
  · have h3 : Ordered (opens env lib fs) [] (pkgPath (opens env lib fs) []) := by
      intro a p b h d r hd hr hp hpk ho
      unfold pkgPath at h
      split at h
      · have hm : p ∈ [([] : List Bytes) ++ [b!"package.mo"]] := by rw [h]; simp
        simp only [List.nil_append, List.mem_singleton] at hm
        rw [hm, List.nil_append] at hp
        have hl := congrArg List.length hp
        have hr' : 0 < r.length := List.length_pos_iff.2 hr
        have hd' : 0 < d.length := List.length_pos_iff.2 hd
        simp only [List.length_append, List.length_cons, List.length_nil] at hl
        omega
      · simp at h
    have := (h3.append h2) a p b h ds r hds hr (by simpa using hp) hpk (by simpa using ho)
    simpa using this

theorem allVisits_mem (env : PackEnv) (lib : Bytes) (fs : Staged) (p : List Bytes)
    (h : p ∈ (allVisits env lib fs).1) : p ≠ [] ∧ ModelicaName (nameOf p) := by
  have hpk : ∀ ds : List Bytes, ds ++ [b!"package.mo"] ≠ [] ∧ ModelicaName (nameOf (ds ++ [b!"package.mo"])) :=
    fun ds => ⟨by simp, by rw [nameOf_append]; exact modelica_package⟩
  have h0 : p ∈ pkgPath (opens env lib fs) [] → p ≠ [] ∧ ModelicaName (nameOf p) := by
    intro h
    unfold pkgPath at h
    split at h
    · simp only [List.mem_singleton] at h
      rw [h]
      exact hpk []
    · simp at h
  unfold allVisits at h
  split at h
  · rename_i l hl
    dsimp only at h
    rcases List.mem_append.1 h with h | h
    · exact h0 h
    · obtain ⟨q, h1, h2, h3⟩ := visits_mem _ _ _ _ h
      rw [List.nil_append] at h1
      subst h1
      refine ⟨h2, ?_⟩
      rcases h3 with ⟨-, h3, -⟩ | ⟨ds, -, h3, -⟩
      · exact (isModelicaFile_iff _).1 h3
      · rw [h3]
        exact (hpk ds).2
  · exact h0 h

theorem allVisits_nodup (env : PackEnv) (lib : Bytes) (fs : Staged)
    (h : ∀ l, env.encryptWalk fs = some l → NoRepeats l) : (allVisits env lib fs).1.Nodup := by
  unfold allVisits
  split
  · rename_i l hl
    exact pkg_nodup _ l [] (visits_nodup _ l [] (h l hl))
  · unfold pkgPath
    split <;> simp

theorem allVisits_complete (env : PackEnv) (lib : Bytes) (fs : Staged)
    (hw : ∀ l, env.encryptWalk fs = some l → ShowsOld l [lib] fs) (hok : (allVisits env lib fs).2 = true)
    (p : List Bytes) (hp : p ≠ []) (c : Bytes) (hc : fs.get (lib :: p) = some (.file c))
    (hm : ModelicaName (nameOf p)) (hd : ∀ d ∈ p.dropLast, eqNoCase d b!"package.mo" = false)
    (hpk : eqNoCase (nameOf p) b!"package.mo" = true →
      nameOf p = b!"package.mo" ∧ env.canRead (lib :: p) = true) :
    p ∈ (allVisits env lib fs).1 := by
  unfold allVisits at hok ⊢
  split at hok
  · rename_i l hl
    dsimp only at hok ⊢
    obtain ⟨h1, h2, h3⟩ := hw l hl
    have hmem : (p, Kind.file) ∈ entries l := by
      obtain ⟨k, h4, h5⟩ := h3 (lib :: p) (Staged.mem_of_get hc) ⟨p, rfl⟩ (by simpa using hp)
      rw [hc] at h5
      simp only [Option.map_some, kindOf, Option.some.injEq] at h5
      subst h5
      simpa using h4
    have hopen : eqNoCase (nameOf p) b!"package.mo" = true → nameOf p = b!"package.mo" ∧
        opens env lib fs p.dropLast = true := by
      intro h
      obtain ⟨h4, h5⟩ := hpk h
      refine ⟨h4, (opens_iff ..).2 ?_⟩
      have : lib :: p.dropLast ++ [b!"package.mo"] = lib :: p := by
        rw [← h4, List.cons_append, dropLast_nameOf hp]
      rw [this, hc]
      exact ⟨h5, by simp⟩
    by_cases hroot : eqNoCase (nameOf p) b!"package.mo" = true ∧ p.dropLast = []
    · apply List.mem_append_left
      obtain ⟨h4, h5⟩ := hopen hroot.1
      rw [hroot.2] at h5
      unfold pkgPath
      rw [if_pos h5, ← dropLast_nameOf hp, hroot.2, h4]
      simp
    · apply List.mem_append_right
      have := visits_complete (opens env lib fs) l [] hok p hmem hd ((isModelicaFile_iff _).2 hm)
        (fun h => by
          obtain ⟨h4, h5⟩ := hopen h
          exact ⟨h4, fun h' => hroot ⟨h, h'⟩, by simpa using h5⟩)
      simpa using this
  · simp at hok

end Semla
