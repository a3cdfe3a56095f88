import Verif.Lemmas.LveRun

/-! # Helper lemmas: what the handlers of a session do -/

set_option linter.unusedSimpArgs false

namespace Semla

open Semla.Spec

theorem cstr_idem (b : Bytes) : cstr (cstr b) = cstr b := by
  unfold cstr; simp [List.takeWhile_takeWhile]

/-- The call that creates a manager for this session. -/
def newCall (st : LveSt) : LicCall := .new (st.libpath.map cstr)

theorem setup_cases {conf : LveConf} {st st' : LveSt} {a : LicAnswer} (h : setupLicensing conf st = (st', a)) :
    (st.hasMgr = true ∧ st' = st ∧ a = .success) ∨
    (st.hasMgr = false ∧ conf.licenseManager (st.calls ++ [newCall st]) = .success ∧ a = .success ∧
      st' = { st with hasMgr := true, calls := st.calls ++ [newCall st] }) ∨
    (∃ m, st.hasMgr = false ∧ conf.licenseManager (st.calls ++ [newCall st]) = .failure m ∧ a = .failure m ∧
      st' = { st with calls := st.calls ++ [newCall st] }) := by
  unfold setupLicensing callManager at h
  by_cases hm : st.hasMgr = true
  · rw [if_pos hm] at h
    simp only [Prod.mk.injEq] at h
    exact Or.inl ⟨hm, h.1.symm, h.2.symm⟩
  · have hm' : st.hasMgr = false := by simpa using hm
    rw [if_neg hm] at h
    cases hl : conf.licenseManager (st.calls ++ [newCall st]) with
    | success =>
      unfold newCall at hl
      simp only [hl, Prod.mk.injEq] at h
      exact Or.inr (Or.inl ⟨hm', rfl, h.2.symm, h.1.symm⟩)
    | failure m =>
      unfold newCall at hl
      simp only [hl, Prod.mk.injEq] at h
      exact Or.inr (Or.inr ⟨m, hm', rfl, h.2.symm, h.1.symm⟩)

/-- The manager is there afterwards, and these calls were made for it. -/
def Ready (conf : LveConf) (st : LveSt) (cs : List LicCall) : Prop :=
  (st.hasMgr = true ∧ cs = []) ∨
  (st.hasMgr = false ∧ cs = [newCall st] ∧ conf.licenseManager (st.calls ++ cs) = .success)

/-- Creating the manager failed. -/
def NoManager (conf : LveConf) (st : LveSt) (m : Bytes) : Prop :=
  st.hasMgr = false ∧ conf.licenseManager (st.calls ++ [newCall st]) = .failure (some m)

theorem setupCheck_cases {conf : LveConf} {w : World} {st st' : LveSt} {out : List Bytes} {ok : Bool}
    (h : setupLicensingCheckError conf w false st = .ok (st', out, ok)) :
    (ok = true ∧ out = [] ∧ ∃ cs, Ready conf st cs ∧ st' = { st with hasMgr := true, calls := st.calls ++ cs }) ∨
    (ok = false ∧ ∃ m, NoManager conf st m ∧ ErrOut w 7 (cstr m) out ∧
      st' = { st with calls := st.calls ++ [newCall st] }) := by
  unfold setupLicensingCheckError at h
  rcases hs : setupLicensing conf st with ⟨st1, a⟩
  rcases setup_cases hs with ⟨hm, h1, rfl⟩ | ⟨hm, hl, rfl, h1⟩ | ⟨m, hm, hl, rfl, h1⟩
  · simp only [hs, Res.ok.injEq, Prod.mk.injEq] at h
    obtain ⟨rfl, rfl, rfl⟩ := h
    refine Or.inl ⟨rfl, rfl, [], Or.inl ⟨hm, rfl⟩, ?_⟩
    rw [h1]; simp [hm.symm]
  · simp only [hs, Res.ok.injEq, Prod.mk.injEq] at h
    obtain ⟨rfl, rfl, rfl⟩ := h
    exact Or.inl ⟨rfl, rfl, [newCall st], Or.inr ⟨hm, rfl, hl⟩, h1⟩
  · cases m with
    | none => simp [hs] at h
    | some m =>
      simp only [hs, Res.bind_eq_ok] at h
      obtain ⟨out', h2, h3⟩ := h
      simp only [Res.ok.injEq, Prod.mk.injEq] at h3
      obtain ⟨rfl, rfl, rfl⟩ := h3
      exact Or.inr ⟨rfl, m, ⟨hm, hl⟩, reply_error (code := 7) h2, h1⟩

theorem feature_cases {conf : LveConf} {w : World} {st st' : LveSt} {cmd : Command} {out : List Bytes}
    {ok : Bool} (h : lveFeature conf w false st cmd = .ok (st', out, ok)) :
    (∃ m, NoManager conf st m ∧ ErrOut w 7 (cstr m) out ∧ st' = { st with calls := st.calls ++ [newCall st] }) ∨
    (∃ f cs, featureArg cmd = .ok f ∧ Ready conf st cs ∧
      st' = { st with hasMgr := true, calls := st.calls ++ cs ++ [.checkout f] } ∧
      ((conf.licenseManager (st.calls ++ cs ++ [.checkout f]) = .success ∧ out = [sendSimple .yes]) ∨
       ∃ m, conf.licenseManager (st.calls ++ cs ++ [.checkout f]) = .failure (some m) ∧
        DataOut w b!"NO" (cstr m) out)) := by
  unfold lveFeature at h
  rw [Res.bind_eq_ok] at h
  obtain ⟨⟨st1, out1, ok1⟩, h1, h⟩ := h
  rcases setupCheck_cases h1 with ⟨rfl, rfl, cs, hr, h2⟩ | ⟨rfl, m, hn, ho, h2⟩
  · simp only [not_true_eq_false, if_false, Res.bind_eq_ok] at h
    obtain ⟨f, hf, h⟩ := h
    refine Or.inr ⟨f, cs, hf, hr, ?_⟩
    have hc : st1.calls = st.calls ++ cs := by rw [h2]
    unfold callManager at h
    rw [hc] at h
    cases hl : conf.licenseManager (st.calls ++ cs ++ [.checkout f]) with
    | success =>
      simp only [hl, Bool.false_eq_true, if_false, Res.ok.injEq, Prod.mk.injEq] at h
      obtain ⟨rfl, rfl, rfl⟩ := h
      exact ⟨by rw [h2], Or.inl ⟨rfl, rfl⟩⟩
    | failure m =>
      cases m with
      | none => simp only [hl, reduceCtorEq, Bool.false_eq_true, if_false] at h
      | some m =>
        simp only [hl, Bool.false_eq_true, if_false, Res.bind_eq_ok] at h
        obtain ⟨out2, h3, h4⟩ := h
        simp only [Res.ok.injEq, Prod.mk.injEq] at h4
        obtain ⟨rfl, rfl, rfl⟩ := h4
        exact ⟨by rw [h2], Or.inr ⟨m, rfl, reply_length (c := .no) h3⟩⟩
  · simp only [Bool.false_eq_true, not_false_eq_true, if_true, Res.ok.injEq, Prod.mk.injEq] at h
    obtain ⟨rfl, rfl, -⟩ := h
    exact Or.inl ⟨m, hn, ho, h2⟩

theorem returnFeature_cases {conf : LveConf} {w : World} {st st' : LveSt} {cmd : Command} {out : List Bytes}
    (h : lveReturnFeature conf w st cmd = .ok (st', out)) :
    (∃ m, NoManager conf st m ∧ ErrOut w 7 (cstr m) out ∧ st' = { st with calls := st.calls ++ [newCall st] }) ∨
    (∃ f cs, featureArg cmd = .ok f ∧ Ready conf st cs ∧
      st' = { st with hasMgr := true, calls := st.calls ++ cs ++ [.checkin f] } ∧
      ((conf.licenseManager (st.calls ++ cs ++ [.checkin f]) = .success ∧ out = [sendSimple .yes]) ∨
       ∃ m, conf.licenseManager (st.calls ++ cs ++ [.checkin f]) = .failure (some m) ∧
        ErrOut w 7 (cstr m) out)) := by
  unfold lveReturnFeature at h
  rw [Res.bind_eq_ok] at h
  obtain ⟨⟨st1, out1, ok1⟩, h1, h⟩ := h
  rcases setupCheck_cases h1 with ⟨rfl, rfl, cs, hr, h2⟩ | ⟨rfl, m, hn, ho, h2⟩
  · simp only [not_true_eq_false, if_false, Res.bind_eq_ok] at h
    obtain ⟨f, hf, h⟩ := h
    refine Or.inr ⟨f, cs, hf, hr, ?_⟩
    have hc : st1.calls = st.calls ++ cs := by rw [h2]
    unfold callManager at h
    rw [hc] at h
    cases hl : conf.licenseManager (st.calls ++ cs ++ [.checkin f]) with
    | success =>
      simp only [hl, Res.ok.injEq, Prod.mk.injEq] at h
      obtain ⟨rfl, rfl⟩ := h
      exact ⟨by rw [h2], Or.inl ⟨rfl, rfl⟩⟩
    | failure m =>
      cases m with
      | none => simp only [hl, reduceCtorEq, Bool.false_eq_true, if_false] at h
      | some m =>
        simp only [hl, Res.bind_eq_ok] at h
        obtain ⟨out2, h3, h4⟩ := h
        simp only [Res.ok.injEq, Prod.mk.injEq] at h4
        obtain ⟨rfl, rfl⟩ := h4
        exact ⟨by rw [h2], Or.inr ⟨m, rfl, reply_error (code := 7) h3⟩⟩
  · simp only [Bool.false_eq_true, not_false_eq_true, if_true, Res.ok.injEq, Prod.mk.injEq] at h
    obtain ⟨rfl, rfl⟩ := h
    exact Or.inl ⟨m, hn, ho, h2⟩

theorem global_cases {conf : LveConf} {st st' : LveSt} {a : LicAnswer} (h : globalLicense conf st = (st', a)) :
    ((conf.globalFeature = none ∨ st.approved = false) ∧ st' = st ∧ a = .success) ∨
    (∃ m, st.approved = true ∧ conf.globalFeature ≠ none ∧ st.hasMgr = false ∧
      conf.licenseManager (st.calls ++ [newCall st]) = .failure m ∧ a = .failure m ∧
      st' = { st with calls := st.calls ++ [newCall st] }) ∨
    (∃ g cs, conf.globalFeature = some g ∧ st.approved = true ∧ Ready conf st cs ∧
      st' = { st with hasMgr := true, calls := st.calls ++ cs ++ [.checkout g] } ∧
      a = conf.licenseManager (st.calls ++ cs ++ [.checkout g])) := by
  unfold globalLicense at h
  cases hg : conf.globalFeature with
  | none =>
    simp only [hg, Prod.mk.injEq] at h
    exact Or.inl ⟨Or.inl rfl, h.1.symm, h.2.symm⟩
  | some g =>
    simp only [hg] at h
    by_cases hap : st.approved = true
    · rw [if_pos hap] at h
      rcases hs : setupLicensing conf st with ⟨st1, b⟩
      rw [hs] at h
      rcases setup_cases hs with ⟨hm, h1, rfl⟩ | ⟨hm, hl, rfl, h1⟩ | ⟨m, hm, hl, rfl, h1⟩
      · simp only [callManager, Prod.mk.injEq] at h
        refine Or.inr (Or.inr ⟨g, [], rfl, hap, Or.inl ⟨hm, rfl⟩, ?_, ?_⟩)
        · rw [← h.1, h1]; simp [hm]
        · rw [← h.2, h1]; simp
      · simp only [callManager, Prod.mk.injEq] at h
        refine Or.inr (Or.inr ⟨g, [newCall st], rfl, hap, Or.inr ⟨hm, rfl, hl⟩, ?_, ?_⟩)
        · rw [← h.1, h1]
        · rw [← h.2, h1]
      · simp only [Prod.mk.injEq] at h
        exact Or.inr (Or.inl ⟨m, hap, by simp, hm, hl, h.2.symm, by rw [← h.1, h1]⟩)
    · have hap' : st.approved = false := by simpa using hap
      rw [if_neg hap] at h
      simp only [Prod.mk.injEq] at h
      exact Or.inl ⟨Or.inr hap', h.1.symm, h.2.symm⟩

/-- The session while LIB is being handled: root and empty decryption context in place. -/
def withRoot (st : LveSt) (path : Bytes) : LveSt :=
  { st with libpath := some path, pathSize := path.length, cr := some [] }

theorem lib_cases {conf : LveConf} {w : World} {st st' : LveSt} {cmd : Command} {out : List Bytes} {ok : Bool}
    (h : lveLibpath conf w false st cmd = .ok (st', out, ok)) :
    ((cmd.data = none ∨ cmd.length = 0) ∧ out = [] ∧ ok = false ∧
      st' = { st with toolErrType := 4, toolErrMsg := some b!"Path to library is missing." }) ∨
    ∃ buf data, cmd.data = some buf ∧ cmd.length ≠ 0 ∧ readCells buf.cells cmd.length = .ok data ∧
      ((¬ Ample w ∧ out = [] ∧ ok = false ∧
        st' = { st with libpath := some (trimLoop data data.length),
                        pathSize := (trimLoop data data.length).length, cr := none, toolErrType := 8,
                        toolErrMsg := some b!"Failed to allocate memory for decryption context." }) ∨
       (∃ st1 m, globalLicense conf (withRoot st (trimLoop data data.length)) = (st1, .failure (some m)) ∧
         ErrOut w 7 (cstr m) out ∧ ok = false ∧
         st' = { st1 with toolErrMsg := some (cstr m), toolErrType := 7, approved := false }) ∨
       (∃ st1, globalLicense conf (withRoot st (trimLoop data data.length)) = (st1, .success) ∧
         out = [sendSimple .yes] ∧ validateDirectory w st1 = (st', ok))) := by
  unfold lveLibpath at h
  split at h
  · rename_i hd
    simp only [Res.ok.injEq, Prod.mk.injEq] at h
    obtain ⟨rfl, rfl, rfl⟩ := h
    exact Or.inl ⟨Or.inl hd, rfl, rfl, rfl⟩
  · rename_i buf hd
    split at h
    · rename_i h0
      simp only [Res.ok.injEq, Prod.mk.injEq] at h
      obtain ⟨rfl, rfl, rfl⟩ := h
      exact Or.inl ⟨Or.inr h0, rfl, rfl, rfl⟩
    · rename_i h0
      split at h
      · cases h
      · rw [Res.bind_eq_ok] at h
        obtain ⟨data, hr, h⟩ := h
        refine Or.inr ⟨buf, data, hd, h0, hr, ?_⟩
        simp only at h
        split at h
        · rename_i hm
          simp only [Res.ok.injEq, Prod.mk.injEq] at h
          obtain ⟨rfl, rfl, rfl⟩ := h
          exact Or.inl ⟨fun ha => hm (ha _), rfl, rfl, rfl⟩
        · change (match globalLicense conf (withRoot st (trimLoop data data.length)) with
            | (_, .failure none) => _ | (st, .failure (some m)) => _ | (st, .success) => _) = _ at h
          rcases hg : globalLicense conf (withRoot st (trimLoop data data.length)) with ⟨st1, a⟩
          rw [hg] at h
          rcases a with _ | (_ | m)
          · simp only [Bool.false_eq_true, if_false] at h
            rcases hv : validateDirectory w st1 with ⟨st2, b⟩
            simp only [hv, Res.ok.injEq, Prod.mk.injEq] at h
            obtain ⟨rfl, rfl, rfl⟩ := h
            exact Or.inr (Or.inr ⟨st1, rfl, rfl, hv⟩)
          · simp at h
          · simp only [Bool.false_eq_true, if_false, Res.bind_eq_ok] at h
            obtain ⟨out1, h1, h2⟩ := h
            simp only [Res.ok.injEq, Prod.mk.injEq] at h2
            obtain ⟨rfl, rfl, rfl⟩ := h2
            by_cases hm : w.malloc ((cstr m).length + 1) = true
            · rw [if_pos hm] at h1
              have := reply_error (code := 7) h1
              rw [cstr_idem] at this
              exact Or.inr (Or.inl ⟨st1, m, rfl, this, rfl, by rw [if_pos hm]; rfl⟩)
            · rw [if_neg hm] at h1
              simp [reply, sendError] at h1

theorem validateDirectory_cases {w : World} {st st' : LveSt} {ok : Bool}
    (h : validateDirectory w st = (st', ok)) :
    (w.stat (cstr (st.libpath.getD [])) = some true ∧ st' = st ∧ ok = true) ∨
    (∃ m, w.stat (cstr (st.libpath.getD [])) ≠ some true ∧ ok = false ∧
      st' = { st with toolErrType := 4, toolErrMsg := some m }) := by
  unfold validateDirectory at h
  split at h <;> simp only [Prod.mk.injEq] at h <;> obtain ⟨rfl, rfl⟩ := h
  · exact Or.inr ⟨_, by rename_i hs; rw [hs]; simp, rfl, rfl⟩
  · exact Or.inr ⟨_, by rename_i hs; rw [hs]; simp, rfl, rfl⟩
  · exact Or.inl ⟨by assumption, rfl, rfl⟩

/-- What LIB leaves alone. -/
theorem lib_frame {conf : LveConf} {w : World} {st st' : LveSt} {cmd : Command} {out : List Bytes} {ok : Bool}
    (h : lveLibpath conf w false st cmd = .ok (st', out, ok)) :
    st'.errMsg = st.errMsg ∧ (st'.approved = true → st.approved = true) ∧
    (st'.toolErrType = st.toolErrType ∨ st'.toolErrType = 4 ∨ st'.toolErrType = 7 ∨ st'.toolErrType = 8) ∧
    (st.toolErrMsg ≠ none → st'.toolErrMsg ≠ none) ∧
    (∀ m, st'.toolErrMsg = some m → st.toolErrMsg = some m ∨ (m.length < 100) ∨ (∃ t, cstr t = m)) ∧
    (st'.approved = false → st'.toolErrMsg = none → st.approved = false ∧ st.toolErrMsg = none) := by
  have hgl : ∀ {s s' : LveSt} {a}, globalLicense conf s = (s', a) →
      s'.errMsg = s.errMsg ∧ s'.approved = s.approved ∧ s'.toolErrType = s.toolErrType ∧
        s'.toolErrMsg = s.toolErrMsg := by
    intro s s' a hg
    rcases global_cases hg with ⟨-, rfl, -⟩ | ⟨m, -, -, -, -, -, rfl⟩ | ⟨g, cs, -, -, -, rfl, -⟩ <;> simp
  rcases lib_cases h with ⟨-, -, -, rfl⟩ | ⟨buf, data, -, -, -, ⟨-, -, -, rfl⟩ | ⟨st1, m, hg, -, -, rfl⟩ |
    ⟨st1, hg, -, hv⟩⟩
  · simp
  · simp
  · obtain ⟨h1, h2, h3, h4⟩ := hgl hg
    simp [withRoot, h1]
  · obtain ⟨h1, h2, h3, h4⟩ := hgl hg
    simp only [withRoot] at h1 h2 h3 h4
    have hlen : ∀ m, st'.toolErrMsg = some m → st1.toolErrMsg = some m ∨ m.length < 100 := by
      unfold validateDirectory at hv
      intro m hm
      split at hv <;> simp only [Prod.mk.injEq] at hv <;> obtain ⟨rfl, rfl⟩ := hv
      · simp at hm; right; rw [← hm]; decide
      · simp at hm; right; rw [← hm]; decide
      · exact Or.inl hm
    have hlen' : ∀ m, st'.toolErrMsg = some m → st.toolErrMsg = some m ∨ m.length < 100 := by
      intro m hm; have := hlen m hm; rwa [h4] at this
    rcases validateDirectory_cases hv with ⟨-, rfl, -⟩ | ⟨m, -, -, rfl⟩
    · refine ⟨h1, by rw [h2]; exact id, Or.inl h3, by rw [h4]; exact id, ?_, by rw [h2, h4]; exact fun a b => ⟨a, b⟩⟩
      intro m hm
      rcases hlen' m hm with h | h
      · exact Or.inl h
      · exact Or.inr (Or.inl h)
    · refine ⟨h1, by simp [h2], Or.inr (Or.inl rfl), by simp, ?_, by simp⟩
      intro m' hm'
      rcases hlen' m' hm' with h | h
      · exact Or.inl h
      · exact Or.inr (Or.inl h)

theorem lveDecrypt_frame {conf : LveConf} {w : World} {st st' : LveSt} {rel c o : Bytes} {n : Int}
    (h : lveDecrypt conf w st rel c = .ok (st', n, o)) : ∃ t, st' = { st with cr := t } := by
  unfold lveDecrypt at h
  split at h
  · rw [Res.bind_eq_ok] at h
    obtain ⟨⟨t, n', o'⟩, -, h⟩ := h
    simp only [Res.ok.injEq, Prod.mk.injEq] at h
    exact ⟨_, h.1.symm⟩
  · rw [Res.bind_eq_ok] at h
    obtain ⟨⟨n', o'⟩, -, h⟩ := h
    simp only [Res.ok.injEq, Prod.mk.injEq] at h
    exact ⟨st.cr, h.1.symm⟩

theorem fileError_cases {w : World} {code : Nat} {m : Option Bytes} {out : List Bytes}
    (h : fileError w code m = .ok out) : (m = none ∧ out = []) ∨ ∃ t, m = some t ∧ ErrOut w code (cstr t) out := by
  unfold fileError at h
  split at h
  · simp only [Res.ok.injEq] at h; exact Or.inl ⟨rfl, h.symm⟩
  · exact Or.inr ⟨_, rfl, reply_error h⟩

/-- What FILE may answer. -/
theorem file_cases {conf : LveConf} {w : World} {st st' : LveSt} {cmd : Command} {out : List Bytes}
    (h : lveFile conf w st cmd = .ok (st', out)) :
    (st.approved = false ∧ st' = st ∧ fileError w st.toolErrType st.toolErrMsg = .ok out) ∨
    (st.approved = true ∧ (∃ t, st' = { st with cr := t }) ∧
      ((out = [] ∧ ¬ Ample w) ∨ (∃ t, ErrOut w 6 t out) ∨ (∃ t, ErrOut w 8 t out) ∨
       (st.libpath ≠ none ∧ cmd.data ≠ none ∧ ∃ d, DataOut w b!"FILECONT" d out))) := by
  have keep : ∃ t, st = { st with cr := t } := ⟨st.cr, rfl⟩
  have other : ∀ {c : Nat} {m : Option Bytes} {o}, fileError w c m = .ok o → (Ample w → m ≠ none) →
      (o = [] ∧ ¬ Ample w) ∨ ∃ t, ErrOut w c t o := by
    intro c m o h hm
    rcases fileError_cases h with ⟨h1, rfl⟩ | ⟨t, -, h2⟩
    · exact Or.inl ⟨rfl, fun ha => hm ha h1⟩
    · exact Or.inr ⟨_, h2⟩
  unfold lveFile at h
  split at h
  · rename_i hap
    rw [Res.bind_eq_ok] at h
    obtain ⟨o, h1, h2⟩ := h
    simp only [Res.ok.injEq, Prod.mk.injEq] at h2
    obtain ⟨rfl, rfl⟩ := h2
    exact Or.inl ⟨by simpa using hap, rfl, h1⟩
  · rename_i hap
    refine Or.inr ⟨by simpa using hap, ?_⟩
    simp only at h
    split at h
    · rw [Res.bind_eq_ok] at h
      obtain ⟨o, h1, h2⟩ := h
      simp only [Res.ok.injEq, Prod.mk.injEq] at h2
      obtain ⟨rfl, rfl⟩ := h2
      rcases other (c := 8) h1 (by simp) with h | h
      · exact ⟨keep, Or.inl h⟩
      · exact ⟨keep, Or.inr (Or.inr (Or.inl h))⟩
    · split at h
      · rename_i lib buf hl hd
        rw [Res.bind_eq_ok] at h
        obtain ⟨rel, -, h⟩ := h
        split at h
        · cases h
        · split at h
          · rename_i e hrf
            rw [Res.bind_eq_ok] at h
            obtain ⟨msg, h1, h⟩ := h
            rw [Res.bind_eq_ok] at h
            obtain ⟨o, h2, h3⟩ := h
            simp only [Res.ok.injEq, Prod.mk.injEq] at h3
            obtain ⟨rfl, rfl⟩ := h3
            have hm : Ample w → msg ≠ none := by
              intro ha
              have hn : ∀ t, errorNew w.malloc 1 1 t = some ⟨1, 1, some (snprintf defaultMsgSize t)⟩ := by
                intro t; simp [errorNew, ha _]
              unfold readFile at hrf
              split at hrf
              · simp only [hn, ReadFile.failed.injEq] at hrf
                subst hrf
                simp only [errorMessage, Res.ok.injEq] at h1
                subst h1; simp
              · simp only [hn, ReadFile.failed.injEq] at hrf
                subst hrf
                simp only [errorMessage, Res.ok.injEq] at h1
                subst h1; simp
              · simp only [hn, ReadFile.failed.injEq] at hrf
                subst hrf
                simp only [errorMessage, Res.ok.injEq] at h1
                subst h1; simp
              · simp only [ha _, if_true] at hrf
                split at hrf
                · split at hrf
                  · simp only [hn, ReadFile.failed.injEq] at hrf
                    subst hrf
                    simp only [errorMessage, Res.ok.injEq] at h1
                    subst h1; simp
                  · cases hrf
                · cases hrf
            rcases other (c := 6) h2 hm with h | h
            · exact ⟨keep, Or.inl h⟩
            · exact ⟨keep, Or.inr (Or.inl h)⟩
          · rename_i content hrf
            split at h
            · split at h
              · rename_i hma
                rw [Res.bind_eq_ok] at h
                obtain ⟨o, h2, h3⟩ := h
                simp only [Res.ok.injEq, Prod.mk.injEq] at h3
                obtain ⟨rfl, rfl⟩ := h3
                rcases other (c := 8) h2 (fun ha => absurd (ha _) hma) with h | h
                · exact ⟨keep, Or.inl h⟩
                · exact ⟨keep, Or.inr (Or.inr (Or.inl h))⟩
              · rw [Res.bind_eq_ok] at h
                obtain ⟨⟨st2, n, o2⟩, h1, h⟩ := h
                have hfr := lveDecrypt_frame h1
                simp only at h
                split at h
                · rw [Res.bind_eq_ok] at h
                  obtain ⟨o, h2, h3⟩ := h
                  simp only [Res.ok.injEq, Prod.mk.injEq] at h3
                  obtain ⟨rfl, rfl⟩ := h3
                  rcases other (c := 8) h2 (fun ha => by simp [ha _]) with h | h
                  · exact ⟨hfr, Or.inl h⟩
                  · exact ⟨hfr, Or.inr (Or.inr (Or.inl h))⟩
                · rw [Res.bind_eq_ok] at h
                  obtain ⟨o, h2, h3⟩ := h
                  simp only [Res.ok.injEq, Prod.mk.injEq] at h3
                  obtain ⟨rfl, rfl⟩ := h3
                  exact ⟨hfr, Or.inr (Or.inr (Or.inr ⟨by simp [hl], by simp [hd], _, reply_length (c := .fileCont) h2⟩))⟩
            · rw [Res.bind_eq_ok] at h
              obtain ⟨o, h2, h3⟩ := h
              simp only [Res.ok.injEq, Prod.mk.injEq] at h3
              obtain ⟨rfl, rfl⟩ := h3
              exact ⟨keep, Or.inr (Or.inr (Or.inr ⟨by simp [hl], by simp [hd], _, reply_length (c := .fileCont) h2⟩))⟩
      · cases h

end Semla
