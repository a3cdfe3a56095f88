import Verif.Lemmas.PackUnpack
import Verif.Props.Manifest

/-!
# Lemmas about the manifest in the archive
-/

namespace Semla

open Spec

/-! ## Arguments -/

theorem argOf_some {ps : List (Bytes × Bytes)} {k v : Bytes} (h : argOf ps k = some v) : (k, v) ∈ ps := by
  unfold argOf at h
  rw [Option.map_eq_some_iff] at h
  obtain ⟨⟨k', v'⟩, h1, h2⟩ := h
  have h3 := List.find?_some h1
  simp only [decide_eq_true_eq] at h3 h2
  subst h3 h2
  exact List.mem_of_find?_eq_some h1

theorem argOf_none {ps : List (Bytes × Bytes)} {k : Bytes} (h : argOf ps k = none) (v : Bytes) : (k, v) ∉ ps := by
  unfold argOf at h
  rw [Option.map_eq_none_iff, List.find?_eq_none] at h
  intro hm
  exact h _ hm (by simp)

theorem getValueOf_argOf {env : PackEnv} {args : List Bytes} {d : ArgData}
    (h : packArguments env args = .ok (some d)) {ps : List (Bytes × Bytes)} (hp : ArgPairs args ps) {k : Bytes}
    (hk : k ∈ knownArguments) (h1 : k ≠ b!"librarypath") (h2 : k ≠ b!"encrypt") :
    getValueOf d k = argOf ps k := by
  cases ha : argOf ps k with
  | none => exact packArguments_none h hp hk (argOf_none ha)
  | some v => rw [packArguments_get h hp hk (argOf_some ha), if_neg h1, if_neg h2]

theorem argPairs_value {args : List Bytes} {ps : List (Bytes × Bytes)} (hp : ArgPairs args ps) :
    ∀ x ∈ ps, x.2 ≠ [] := by
  induction hp with
  | nil => simp
  | cons _ hv _ ih =>
    intro x hx
    rcases List.mem_cons.1 hx with rfl | hx
    · exact hv
    · exact ih x hx

theorem manifestParts_congr {f g : Bytes → Option Bytes} (h : ∀ k ∈ manifestArgs, f k = g k) (id : Bytes)
    (enc : Option (List (Bytes × Bytes))) (icon : Option Bytes) :
    manifestParts f id enc icon = manifestParts g id enc icon := by
  unfold manifestParts libraryParts
  rw [h b!"enabled" (by decide), h b!"title" (by decide), h b!"description" (by decide),
    h b!"version" (by decide), h b!"build" (by decide), h b!"date" (by decide), h b!"language" (by decide),
    h b!"copyright" (by decide), h b!"license" (by decide)]

/-! ## Vendor executables -/

theorem copyLves_names {env : PackEnv} {lib : Bytes} (ns : List Bytes) {fs : Staged} {r : Staged × List Bytes}
    (h : copyLves env lib ns fs = some r) : r.2 = ns.filter env.lve := by
  induction ns generalizing fs r with
  | nil =>
    simp only [copyLves, Option.some.injEq] at h
    rw [← h]
    rfl
  | cons n ns ih =>
    unfold copyLves at h
    split at h
    · rename_i hn
      split at h
      · split at h
        · simp at h
        · rw [Option.map_eq_some_iff] at h
          obtain ⟨r', h1, h2⟩ := h
          rw [← h2, List.filter_cons_of_pos hn, ← ih h1]
      · simp at h
    · rename_i hn
      rw [List.filter_cons_of_neg hn, ih h]

/-- Writing to a file leaves files files. -/
theorem copyLves_file {env : PackEnv} {lib : Bytes} (ns : List Bytes) {fs : Staged} {r : Staged × List Bytes}
    (h : copyLves env lib ns fs = some r) (q : List Bytes) :
    (∃ c, fs.get q = some (.file c)) → ∃ c, r.1.get q = some (.file c) := by
  induction ns generalizing fs r with
  | nil =>
    simp only [copyLves, Option.some.injEq] at h
    rw [← h]
    exact id
  | cons n ns ih =>
    unfold copyLves at h
    split at h
    · split at h
      · split at h
        · simp at h
        · rename_i fs' hw
          rw [Option.map_eq_some_iff] at h
          obtain ⟨r', h1, h2⟩ := h
          rw [← h2]
          dsimp only
          rintro ⟨c, hc⟩
          refine ih h1 ?_
          rw [Staged.get_write hw]
          split
          · exact ⟨_, rfl⟩
          · exact ⟨c, hc⟩
      · simp at h
    · exact ih h

theorem copyLves_there {env : PackEnv} {lib : Bytes} (ns : List Bytes) {fs : Staged} {r : Staged × List Bytes}
    (h : copyLves env lib ns fs = some r) (n : Bytes) (hn : n ∈ ns) (hl : env.lve n = true) :
    ∃ c, r.1.get [lib, b!".library", n] = some (.file c) := by
  induction ns generalizing fs r with
  | nil => simp at hn
  | cons m ns ih =>
    unfold copyLves at h
    split at h
    · split at h
      · split at h
        · simp at h
        · rename_i c _ _ fs' hw
          rw [Option.map_eq_some_iff] at h
          obtain ⟨r', h1, h2⟩ := h
          rw [← h2]
          dsimp only
          rcases List.mem_cons.1 hn with rfl | hn
          · exact copyLves_file ns h1 _ ⟨_, by rw [Staged.get_write hw, if_pos rfl]⟩
          · exact ih h1 hn
      · simp at h
    · rename_i hm
      rcases List.mem_cons.1 hn with rfl | hn
      · exact absurd hl hm
      · exact ih h hn

/-- Other paths are left alone. -/
theorem copyLves_other {env : PackEnv} {lib : Bytes} (ns : List Bytes) {fs : Staged} {r : Staged × List Bytes}
    (h : copyLves env lib ns fs = some r) (q : List Bytes)
    (hq : ∀ n ∈ ns, env.lve n = true → q ≠ [lib, b!".library", n]) : r.1.get q = fs.get q := by
  induction ns generalizing fs r with
  | nil =>
    simp only [copyLves, Option.some.injEq] at h
    rw [← h]
  | cons n ns ih =>
    unfold copyLves at h
    split at h
    · rename_i hl
      split at h
      · split at h
        · simp at h
        · rename_i fs' hw
          rw [Option.map_eq_some_iff] at h
          obtain ⟨r', h1, h2⟩ := h
          rw [← h2]
          dsimp only
          rw [ih h1 fun m hm => hq m (List.mem_cons_of_mem _ hm), Staged.get_write hw,
            if_neg (hq n List.mem_cons_self hl)]
      · simp at h
    · exact ih h fun m hm => hq m (List.mem_cons_of_mem _ hm)

/-- What the copies contain. -/
theorem copyLves_content {env : PackEnv} {lib : Bytes} (ns : List Bytes) (hnd : ns.Nodup) {fs : Staged}
    {r : Staged × List Bytes} (h : copyLves env lib ns fs = some r) (n : Bytes) (hn : n ∈ ns)
    (hl : env.lve n = true) :
    ∃ c, r.1.get [lib, b!".library", n] = some (.file c) ∧ env.lveCopied n = (some c, true) := by
  induction ns generalizing fs r with
  | nil => simp at hn
  | cons m ns ih =>
    obtain ⟨hm1, hm2⟩ := List.nodup_cons.1 hnd
    unfold copyLves at h
    split at h
    · split at h
      · split at h
        · simp at h
        · rename_i c hcop _ fs' hw
          rw [Option.map_eq_some_iff] at h
          obtain ⟨r', h1, h2⟩ := h
          rw [← h2]
          dsimp only
          rcases List.mem_cons.1 hn with rfl | hn
          · refine ⟨c, ?_, hcop⟩
            rw [copyLves_other ns h1 _ (by
              intro k hk _ he
              simp only [List.cons.injEq, and_true, true_and] at he
              exact hm1 (he ▸ hk)), Staged.get_write hw, if_pos rfl]
          · exact ih hm2 h1 hn
      · simp at h
    · rename_i hm
      rcases List.mem_cons.1 hn with rfl | hn
      · exact absurd hl hm
      · exact ih hm2 h hn

theorem write_file {fs : Staged} {p q : List Bytes} {c : Bytes} (h : ∃ c, fs.get q = some (.file c)) :
    ∃ c', ((fs.write p c).getD fs).get q = some (.file c') := by
  obtain ⟨c0, h⟩ := h
  cases hw : fs.write p c with
  | none => exact ⟨c0, h⟩
  | some fs' =>
    rw [Option.getD_some, Staged.get_write hw]
    split
    · exact ⟨_, rfl⟩
    · exact ⟨c0, h⟩

theorem mkdir_file {fs : Staged} {p q : List Bytes} (h : ∃ c, fs.get q = some (.file c)) :
    ∃ c', ((fs.mkdir p).getD fs).get q = some (.file c') := by
  obtain ⟨c0, h⟩ := h
  cases hw : fs.mkdir p with
  | none => exact ⟨c0, h⟩
  | some fs' =>
    rw [Option.getD_some, Staged.get_mkdir hw]
    split
    · rename_i hq
      subst hq
      unfold Staged.mkdir at hw
      split at hw
      · rename_i hc
        rw [h] at hc
        simp at hc
      · simp at hw
    · exact ⟨c0, h⟩

theorem copyEntries_file (s : Source) (l : Listing) (src dst : List Bytes) (fs : Staged) (q : List Bytes)
    (h : ∃ c, fs.get q = some (.file c)) : ∃ c, (copyEntries s l src dst fs).get q = some (.file c) := by
  induction l generalizing src dst fs with
  | done => exact h
  | file n rest ih =>
    simp only [copyEntries]
    split
    · exact ih _ _ _ h
    · refine ih _ _ _ ?_
      split
      · exact write_file h
      · exact h
  | dir n sub rest ih1 ih2 =>
    simp only [copyEntries]
    split
    · exact ih2 _ _ _ h
    · refine ih2 _ _ _ (ih1 _ _ _ ?_)
      split
      · exact mkdir_file h
      · exact h
  | locked n rest ih =>
    simp only [copyEntries]
    split
    · exact ih _ _ _ h
    · refine ih _ _ _ ?_
      split
      · exact mkdir_file h
      · exact h
  | other n rest ih =>
    simp only [copyEntries]
    exact ih _ _ _ h

/-- A vendor executable is there when the manifest has been written. -/
theorem PackSteps.vendor {env : PackEnv} {d : ArgData} {tempDir lib : Bytes} {icon : Option Bytes}
    {lves : List Bytes} {fs1 fs2 fs3 fs4 fs5 fs6 : Staged}
    (h : PackSteps env d tempDir lib icon lves fs1 fs2 fs3 fs4 fs5 fs6) (hu : usingEncryption d = true) :
    lves = lveNames.filter env.lve ∧
    ∀ n ∈ lveNames, env.lve n = true → ∃ c, fs5.get [lib, b!".library", n] = some (.file c) ∧
      ((∀ x, env.extra = some (some x) → [n] ∉ (entries x).map (·.1)) → env.lveCopied n = (some c, true)) := by
  have h1 := h.lveDone
  unfold copyLVE at h1
  rw [if_pos hu] at h1
  split at h1
  · rename_i hexe
    refine ⟨copyLves_names _ h1, ?_⟩
    intro n hn hl
    have hman : n ≠ b!"manifest.xml" := by
      have : ∀ n ∈ lveNames, n ≠ b!"manifest.xml" := by decide
      exact this n hn
    obtain ⟨c2, h2, h2'⟩ := copyLves_content _ (by decide) h1 n hn hl
    have h3 : ∃ c, fs4.get [lib, b!".library", n] = some (.file c) ∧
        ((∀ x, env.extra = some (some x) → [n] ∉ (entries x).map (·.1)) → env.lveCopied n = (some c, true)) := by
      have h' := h.extra
      unfold copyExtraFiles at h'
      rw [if_pos hexe] at h'
      split at h'
      · simp only [Option.some.injEq] at h'
        rw [← h']
        exact ⟨c2, h2, fun _ => h2'⟩
      · rename_i hex
        unfold copyDirectory at h'
        rw [Option.map_eq_some_iff] at h'
        obtain ⟨l, hl', h'⟩ := h'
        rw [← h']
        by_cases hx : [n] ∈ (entries l).map (·.1)
        · obtain ⟨c, hcc⟩ := copyEntries_file env.extraSource l [] [lib, b!".library"] fs3 _ ⟨c2, h2⟩
          exact ⟨c, hcc, fun hno => absurd hx (hno l (by rw [hex, hl']))⟩
        · refine ⟨c2, ?_, fun _ => h2'⟩
          rw [copyEntries_frame _ _ _ _ _ _ (by
            intro p hp he
            simp only [List.cons_append, List.nil_append, List.cons.injEq, true_and] at he
            exact hx (he ▸ hp)), h2]
    have h' := h.manifest
    unfold writeManifest at h'
    dsimp only at h'
    split at h'
    · simp at h'
    · rename_i fs' hw
      rw [Res.bind_eq_ok] at h'
      obtain ⟨doc, -, h'⟩ := h'
      simp only [Res.ok.injEq] at h'
      have hne : [lib, b!".library", n] ≠ [lib, b!".library", b!"manifest.xml"] := by simpa using hman
      rw [← h', Staged.get_set, if_neg hne]
      split at hw
      · rw [Staged.get_write hw, if_neg hne]
        exact h3
      · simp at hw
  · simp at h1

theorem PackSteps.no_vendor {env : PackEnv} {d : ArgData} {tempDir lib : Bytes} {icon : Option Bytes}
    {lves : List Bytes} {fs1 fs2 fs3 fs4 fs5 fs6 : Staged}
    (h : PackSteps env d tempDir lib icon lves fs1 fs2 fs3 fs4 fs5 fs6) (hu : ¬ usingEncryption d = true) :
    lves = [] := by
  have h1 := h.lveDone
  unfold copyLVE at h1
  rw [if_neg hu] at h1
  simp only [Option.some.injEq, Prod.mk.injEq] at h1
  exact h1.2.symm

/-- The manifest is there. -/
theorem PackSteps.written {env : PackEnv} {d : ArgData} {tempDir lib : Bytes} {icon : Option Bytes}
    {lves : List Bytes} {fs1 fs2 fs3 fs4 fs5 fs6 : Staged}
    (h : PackSteps env d tempDir lib icon lves fs1 fs2 fs3 fs4 fs5 fs6) :
    ∃ doc, createManifest d lib lves icon env.readFile = .ok doc ∧
      fs5.get [lib, b!".library", b!"manifest.xml"] = some (.file doc) := by
  have h' := h.manifest
  unfold writeManifest at h'
  dsimp only at h'
  split at h'
  · simp at h'
  · rename_i fs' hw
    rw [Res.bind_eq_ok] at h'
    obtain ⟨doc, h1, h'⟩ := h'
    simp only [Res.ok.injEq] at h'
    exact ⟨doc, h1, by rw [← h', Staged.get_set, if_pos rfl]⟩

/-- The encryption touches only names that end with `c`. -/
theorem PackSteps.encryptKeeps {env : PackEnv} {d : ArgData} {tempDir lib : Bytes} {icon : Option Bytes}
    {lves : List Bytes} {fs1 fs2 fs3 fs4 fs5 fs6 : Staged}
    (h : PackSteps env d tempDir lib icon lves fs1 fs2 fs3 fs4 fs5 fs6)
    (hw : ∀ l, env.encryptWalk fs5 = some l → NoRepeats l) (q : List Bytes)
    (hq : (nameOf q).getLast? ≠ some 99) : fs6.get q = fs5.get q := by
  cases hu : usingEncryption d with
  | false => rw [encryptFiles_off h.encrypt hu]
  | true =>
    obtain ⟨s, h1, h2, -⟩ := encryptFiles_on h.encrypt hu
    obtain ⟨-, -, -, -, h3⟩ := encSeq_jobs fs5 h1 (fun _ _ => rfl) (allVisits_mem env lib fs5)
      (allVisits_nodup env lib fs5 hw)
    rw [h2, h3]
    intro p _ he
    apply hq
    rw [he, nameOf_encryptedPath]
    simp

/-! ## The icon -/

theorem findFile_path (name : Bytes) (l : Listing) (dir : List Bytes) (cur : Option (List Bytes)) (p : List Bytes)
    (h : (findFile name l dir cur).1 = some p) :
    cur = some p ∨ ∃ q, p = dir ++ q ∧ (q, Kind.file) ∈ entries l ∧ nameOf q = name := by
  induction l generalizing dir cur with
  | done => exact Or.inl h
  | file n rest ih =>
    unfold findFile at h
    split at h
    · rename_i hn
      simp only at h
      cases cur with
      | none =>
        simp only [Option.none_or, Option.some.injEq] at h
        exact Or.inr ⟨[n], h.symm, List.mem_cons_self, hn⟩
      | some c => exact Or.inl h
    · rcases ih dir cur h with h | ⟨q, h1, h2, h3⟩
      · exact Or.inl h
      · exact Or.inr ⟨q, h1, List.mem_cons_of_mem _ h2, h3⟩
  | dir n sub rest ih1 ih2 =>
    unfold findFile at h
    rcases ih2 dir _ h with h | ⟨q, h1, h2, h3⟩
    · rcases ih1 _ cur h with h | ⟨q, h1, h2, h3⟩
      · exact Or.inl h
      · refine Or.inr ⟨n :: q, by simpa using h1, ?_, by rw [nameOf_cons _ (entries_ne_nil sub _ h2)]; exact h3⟩
        exact List.mem_append_left _ (List.mem_cons_of_mem _ (List.mem_map.2 ⟨_, h2, rfl⟩))
    · exact Or.inr ⟨q, h1, List.mem_append_right _ h2, h3⟩
  | locked n rest ih =>
    unfold findFile at h
    rcases ih dir cur h with h | ⟨q, h1, h2, h3⟩
    · exact Or.inl h
    · exact Or.inr ⟨q, h1, List.mem_cons_of_mem _ h2, h3⟩
  | other n rest ih =>
    unfold findFile at h
    rcases ih dir cur h with h | ⟨q, h1, h2, h3⟩
    · exact Or.inl h
    · exact Or.inr ⟨q, h1, List.mem_cons_of_mem _ h2, h3⟩

/-- The search succeeds exactly if the top-level directory has a file with the name. -/
theorem findFile_found (name : Bytes) (l : Listing) (dir : List Bytes) (cur : Option (List Bytes)) :
    (findFile name l dir cur).2 = true ↔ ([name], Kind.file) ∈ entries l := by
  have single : ∀ (sub : Listing) (n : Bytes), ([name], Kind.file) ∉
      (entries sub).map fun e => (n :: e.1, e.2) := by
    intro sub n hm
    obtain ⟨e, he, hx⟩ := List.mem_map.1 hm
    simp only [Prod.mk.injEq, List.cons.injEq] at hx
    exact entries_ne_nil sub e he hx.1.2
  induction l generalizing dir cur with
  | done => simp [findFile, entries]
  | file n rest ih =>
    unfold findFile
    split
    · rename_i hn
      simp [entries, hn]
    · rename_i hn
      refine (ih _ _).trans ?_
      simp [entries, Ne.symm hn]
  | dir n sub rest ih1 ih2 =>
    unfold findFile
    refine (ih2 _ _).trans ?_
    simp only [entries, List.cons_append, List.mem_cons, List.mem_append]
    constructor
    · exact fun h => Or.inr (Or.inr h)
    · rintro (h | h | h)
      · simp at h
      · exact absurd h (single sub n)
      · exact h
  | locked n rest ih =>
    unfold findFile
    refine (ih _ _).trans ?_
    simp [entries]
  | other n rest ih =>
    unfold findFile
    refine (ih _ _).trans ?_
    simp [entries]

theorem findFile_some (name : Bytes) (l : Listing) (dir : List Bytes) (cur : Option (List Bytes))
    (h : (findFile name l dir cur).2 = true) : (findFile name l dir cur).1 ≠ none := by
  induction l generalizing dir cur with
  | done => simp [findFile] at h
  | file n rest ih =>
    unfold findFile at h ⊢
    split
    · cases cur <;> simp
    · rename_i hn
      rw [if_neg hn] at h
      exact ih _ _ h
  | dir n sub rest ih1 ih2 =>
    unfold findFile at h ⊢
    exact ih2 _ _ h
  | locked n rest ih =>
    unfold findFile at h ⊢
    exact ih _ _ h
  | other n rest ih =>
    unfold findFile at h ⊢
    exact ih _ _ h

theorem lastName_eq {path n : Bytes} (h : LastName path n) : afterLastSlash path = n := by
  obtain ⟨a, rfl, hn, ha⟩ := h
  unfold afterLastSlash
  rw [List.reverse_append]
  have hall : ∀ c ∈ n.reverse, (decide (c ≠ 47)) = true := by
    intro c hc
    simp only [ne_eq, decide_not, Bool.not_eq_eq_eq_not, Bool.not_true, decide_eq_false_iff_not]
    intro he
    exact hn (he ▸ List.mem_reverse.1 hc)
  rw [List.takeWhile_append_of_pos hall]
  rcases ha with rfl | ha
  · simp
  · obtain ⟨b, rfl⟩ : ∃ b, a = b ++ [47] := by
      rw [List.getLast?_eq_some_iff] at ha
      exact ha
    simp

theorem cleanUp_eq {tmp : Option Bytes} {t rest : Bytes} (ht : TempName t)
    (h4 : 4 ≤ (tmp.getD b!"/tmp").length) (h25 : (tmp.getD b!"/tmp").length ≤ 25) (hr : rest ≠ []) :
    cleanUpIconPath tmp (t ++ b!"/" ++ rest) = .ok (some rest) := by
  obtain ⟨x, hx, hs, rfl⟩ := ht
  have hsplit : b!"/tmp/TemporaryFolder" ++ x = b!"/tmp/" ++ (b!"TemporaryFolder" ++ x) := by simp
  generalize hT : (tmp.getD b!"/tmp").length = T at h4 h25
  have hno : ∀ c ∈ b!"TemporaryFolder" ++ x, (decide (c ≠ 47)) = true := by
    intro c hc
    simp only [ne_eq, decide_not, Bool.not_eq_eq_eq_not, Bool.not_true, decide_eq_false_iff_not]
    rintro rfl
    rcases List.mem_append.1 hc with hc | hc
    · exact absurd hc (by decide)
    · exact hs hc
  have hdrop : (b!"/tmp/TemporaryFolder" ++ x ++ b!"/" ++ rest).drop (T + 1) =
      (b!"TemporaryFolder" ++ x).drop (T - 4) ++ (47 :: rest) := by
    rw [hsplit, List.append_assoc, List.append_assoc, List.drop_append, List.drop_eq_nil_of_le (by simp; omega),
      List.nil_append, List.drop_append_of_le_length (by simp; omega)]
    have : T + 1 - (b!"/tmp/").length = T - 4 := by simp
    rw [this]
    rfl
  have hno' : ∀ c ∈ (b!"TemporaryFolder" ++ x).drop (T - 4), (decide (c ≠ 47)) = true :=
    fun c hc => hno c (List.mem_of_mem_drop hc)
  unfold cleanUpIconPath
  simp only [hT]
  rw [if_neg (by simp; omega), hdrop, if_neg (by simp), if_neg (by simp), List.dropWhile_append_of_pos hno']
  simp [hr]

/-- What the attribute for the icon is. -/
theorem PackSteps.iconPath {env : PackEnv} {d : ArgData} {tempDir lib : Bytes} {icon : Option Bytes}
    {lves : List Bytes} {fs1 fs2 fs3 fs4 fs5 fs6 : Staged}
    (h : PackSteps env d tempDir lib icon lves fs1 fs2 fs3 fs4 fs5 fs6) {l : Listing}
    {content : List Bytes → Bytes} (hl : env.library = some l) (hc : Copyable env.librarySource l content)
    (hw : ∀ l, env.iconWalk fs2 = some l → Shows l [lib] fs2) (ht : TempName tempDir)
    (h4 : 4 ≤ (env.tmpVar.getD b!"/tmp").length) (h25 : (env.tmpVar.getD b!"/tmp").length ≤ 25) :
    (getValueOf d b!"icon" = none → icon = none) ∧
    (∀ v, getValueOf d b!"icon" = some v → ∃ q, icon = some (lib ++ b!"/" ++ relPath q) ∧
      (q, Kind.file) ∈ entries l ∧ Outside q ∧ nameOf q = afterLastSlash v ∧
      ([afterLastSlash v], Kind.file) ∈ entries l) := by
  obtain ⟨c1, c2, c3, c5⟩ := copyFolderStructure_spec h.copy hl hc
  have real : ∀ q c, q ≠ [] → fs2.get (lib :: q) = some (.file c) → (q, Kind.file) ∈ entries l ∧ Outside q := by
    intro q c hne hg
    rw [createLibraryFolder_frame h.folder] at hg
    · have hmem : q ∈ (entries l).map (·.1) := by
        apply Decidable.byContradiction
        intro hn
        rw [c1 (lib :: q) (fun p' hp' he => hn (by simp only [List.cons.injEq, true_and] at he; rwa [he]))
          (by simp) (by simpa using hne)] at hg
        simp at hg
      have ho : Outside q := by
        apply Decidable.byContradiction
        intro hn
        rw [c5 q hmem hn] at hg
        simp at hg
      obtain ⟨⟨q', k⟩, he, hqq⟩ := List.mem_map.1 hmem
      simp only at hqq
      subst hqq
      rcases hc.kinds _ he with hk | hk
      · simp only at hk
        subst hk
        exact ⟨he, ho⟩
      · simp only at hk
        subst hk
        rw [c3 _ he ho] at hg
        simp at hg
    · intro he
      have h' := h.folder
      unfold createLibraryFolder at h'
      split at h'
      · have := Staged.get_mkdir h' (q := lib :: q)
        rw [if_pos he, hg] at this
        simp at this
      · simp at h'
  have hi := h.iconDone
  unfold prepareIconFile at hi
  constructor
  · intro hv
    rw [hv] at hi
    simpa using hi.symm
  · intro v hv
    rw [hv] at hi
    dsimp only at hi
    split at hi
    · simp at hi
    · rename_i p hp
      rw [Res.bind_eq_ok] at hi
      obtain ⟨r, hr, hi⟩ := hi
      simp only [Res.ok.injEq] at hi
      unfold locateIconFile at hp
      split at hp
      · simp at hp
      · rename_i wl hwl
        have hshow := hw wl hwl
        split at hp
        · rename_i p' hf
          simp only [Option.some.injEq] at hp
          subst hp
          have hf1 := findFile_path _ _ _ _ _ (congrArg Prod.fst hf)
          have hf2 := (findFile_found _ _ _ _).1 (congrArg Prod.snd hf)
          have inLib : ∀ q, (q, Kind.file) ∈ entries wl → (q, Kind.file) ∈ entries l ∧ Outside q := by
            intro q hq
            have := hshow.2.1 _ hq
            dsimp only at this
            cases hg : fs2.get ([lib] ++ q) with
            | none =>
              rw [hg] at this
              simp at this
            | some n =>
              cases n with
              | dir =>
                rw [hg] at this
                simp [kindOf] at this
              | file c => exact real q c (entries_ne_nil wl _ hq) hg
          rcases hf1 with hf1 | ⟨q, hq1, hq2, hq3⟩
          · simp at hf1
          · obtain ⟨g1, g2⟩ := inLib q hq2
            have hne := entries_ne_nil l _ g1
            refine ⟨q, ?_, g1, g2, hq3, (inLib _ hf2).1⟩
            have hj : joinPath p' = lib ++ b!"/" ++ relPath q := by
              rw [hq1, joinPath_eq]
              obtain ⟨x, q', rfl⟩ : ∃ x d', q = x :: d' := by
                cases q with
                | nil => exact absurd rfl hne
                | cons x d' => exact ⟨x, d', rfl⟩
              rfl
            rw [hj, cleanUp_eq ht h4 h25 (by simp)] at hr
            simp only [Res.ok.injEq] at hr
            rw [← hr] at hi
            simpa using hi.symm
        · simp at hp

end Semla
