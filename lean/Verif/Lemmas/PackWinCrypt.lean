import Verif.Model.PackWin

/-!
# Encrypting with `\` for `/` in the path

`mlle_cr_encrypt` treats both separators alike, so the path only decides under which keys the masks are
stored in the context.
-/

namespace Semla

/-- `\` for `/`. -/
def backslash (c : UInt8) : UInt8 := if c = 47 then 92 else c

/-- The key of a directory when paths are separated by `\`. -/
def winKey (d : Bytes) : Bytes := if d = b!"/" then b!"/" else d.map backslash

/-- The table of masks when paths are separated by `\`. -/
def winTable (t : MaskTable) : MaskTable := t.map fun e => (winKey e.1, e.2)

/-- Paths and keys without `\`, not beginning with `/`. -/
def RelKey (p : Bytes) : Prop := 92 ∉ p ∧ p.head? ≠ some 47

theorem isSep_backslash (c : UInt8) : isSep (backslash c) = isSep c := by
  unfold isSep backslash
  split <;> simp_all

theorem lastSepFrom_backslash (p : Bytes) (i acc : Nat) :
    lastSepFrom (p.map backslash) i acc = lastSepFrom p i acc := by
  induction p generalizing i acc with
  | nil => rfl
  | cons c p ih => simp only [List.map_cons, lastSepFrom, isSep_backslash, ih]

theorem lastSlash_backslash (p : Bytes) : lastSlash (p.map backslash) = lastSlash p := by
  unfold lastSlash
  rw [← List.map_take, lastSepFrom_backslash]

theorem toLower_47 (c : UInt8) : toLower c = 47 ↔ c = 47 := by
  have h : ∀ n : Fin 256, toLower (UInt8.ofNat n.val) = 47 ↔ UInt8.ofNat n.val = 47 := by decide +kernel
  simpa using h ⟨c.toNat, c.toNat_lt⟩

theorem eqNoCase_backslash (x s : Bytes) (h47 : 47 ∉ x.map toLower) (h92 : 92 ∉ x.map toLower) :
    eqNoCase x (s.map backslash) = eqNoCase x s := by
  unfold eqNoCase
  generalize x.map toLower = y at h47 h92
  induction s generalizing y with
  | nil => rfl
  | cons c s ih =>
    cases y with
    | nil => rfl
    | cons a y =>
      simp only [List.mem_cons, not_or] at h47 h92
      have ih := ih y h47.2 h92.2
      simp only [List.map_cons, List.cons_beq_cons, ih]
      congr 1
      unfold backslash
      split
      · rename_i hc
        subst hc
        have e1 : toLower 92 = 92 := by decide
        have e2 : toLower 47 = 47 := by decide
        rw [e1, e2]
        have h1 : (a == 92) = false := by simpa using fun h => h92.1 h.symm
        have h2 : (a == 47) = false := by simpa using fun h => h47.1 h.symm
        rw [h1, h2]
      · rfl

theorem fileName_backslash (p : Bytes) : fileName (p.map backslash) = (fileName p).map backslash := by
  unfold fileName
  rw [lastSlash_backslash]
  split
  · rfl
  · rw [List.map_drop]

theorem package_backslash (p : Bytes) :
    eqNoCase b!"package.mo" (fileName (p.map backslash)) = eqNoCase b!"package.mo" (fileName p) := by
  rw [fileName_backslash]
  exact eqNoCase_backslash _ _ (by decide) (by decide)

theorem dirKey_backslash {p : Bytes} (h : RelKey p) : dirKey (p.map backslash) = winKey (dirKey p) := by
  unfold dirKey winKey
  rw [lastSlash_backslash]
  split
  · simp
  · rename_i hl
    rw [if_neg, List.map_take]
    intro he
    apply h.2
    cases p with
    | nil => simp at he
    | cons c p =>
      cases hn : lastSlash (c :: p) with
      | zero => exact absurd hn hl
      | succ n =>
        rw [hn] at he
        simp only [List.take_succ_cons, List.cons.injEq] at he
        simp [he.1]

theorem relKey_dirKey {p : Bytes} (h : RelKey p) : dirKey p = b!"/" ∨ RelKey (dirKey p) := by
  unfold dirKey
  split
  · exact Or.inl rfl
  · rename_i hl
    refine Or.inr ⟨fun hm => h.1 (List.mem_of_mem_take hm), ?_⟩
    cases p with
    | nil => simp
    | cons c p =>
      cases hn : lastSlash (c :: p) with
      | zero => exact absurd hn hl
      | succ n => simpa using h.2

/-- Keys that occur in tables. -/
def TableKey (d : Bytes) : Prop := d = b!"/" ∨ RelKey d

theorem backslash_inj {a b : Bytes} (ha : 92 ∉ a) (hb : 92 ∉ b) (h : a.map backslash = b.map backslash) :
    a = b := by
  induction a generalizing b with
  | nil => cases b <;> simp_all
  | cons x a ih =>
    cases b with
    | nil => simp at h
    | cons y b =>
      simp only [List.map_cons, List.cons.injEq] at h
      simp only [List.mem_cons, not_or] at ha hb
      rw [ih ha.2 hb.2 h.2]
      have := h.1
      unfold backslash at this
      split at this <;> split at this
      · simp_all
      · exact absurd this hb.1
      · exact absurd this.symm ha.1
      · rw [this]

theorem winKey_inj {a b : Bytes} (ha : TableKey a) (hb : TableKey b) (h : winKey a = winKey b) : a = b := by
  have h47 : ∀ x : Bytes, (47 : UInt8) ∉ x.map backslash := by
    intro x hx
    obtain ⟨c, -, hc⟩ := List.mem_map.1 hx
    unfold backslash at hc
    split at hc
    · simp at hc
    · contradiction
  unfold winKey at h
  split at h <;> split at h
  · simp_all
  · exact absurd (by rw [← h]; simp) (h47 b)
  · exact absurd (by rw [h]; simp) (h47 a)
  · rename_i h1 h2
    rcases ha with ha | ha
    · exact absurd ha h1
    · rcases hb with hb | hb
      · exact absurd hb h2
      · exact backslash_inj ha.1 hb.1 h

theorem find_winTable {t : MaskTable} {d : Bytes} (ht : ∀ e ∈ t, TableKey e.1) (hd : TableKey d) :
    (winTable t).find (winKey d) = t.find d := by
  unfold MaskTable.find winTable
  induction t with
  | nil => rfl
  | cons e t ih =>
    simp only [List.map_cons, List.find?_cons]
    have ih := ih fun x hx => ht x (List.mem_cons_of_mem _ hx)
    by_cases h : e.1 = d
    · subst h
      simp
    · have h' : winKey e.1 ≠ winKey d := fun hw => h (winKey_inj (ht e List.mem_cons_self) hd hw)
      have e1 : (winKey e.1 == winKey d) = false := by simpa using h'
      have e2 : (e.1 == d) = false := by simpa using h
      simp only [e1, e2]
      exact ih

theorem head_winKey {d : Bytes} (hd : TableKey d) : (winKey d).head? = some 47 ↔ d.head? = some 47 := by
  rcases hd with rfl | hd
  · simp [winKey]
  · refine ⟨fun h => ?_, fun h => absurd h hd.2⟩
    exfalso
    unfold winKey at h
    split at h
    · rename_i he
      exact hd.2 (by rw [he]; rfl)
    · rw [List.head?_map] at h
      cases hx : d.head? with
      | none => simp [hx] at h
      | some c =>
        rw [hx] at h
        simp only [Option.map_some, Option.some.injEq, backslash] at h
        split at h
        · simp at h
        · contradiction

/-- The result of `mlle_mask_key` with the keys of the table changed. -/
def winOut (m : MaskOut) : MaskOut := { m with table := winTable m.table }

theorem addItem_win (b : Bool) (t : MaskTable) (d m : Bytes) :
    addItem b (winTable t) (winKey d) m = winTable (addItem b t d m) := by
  unfold addItem
  split <;> simp [winTable]

theorem winTable_isEmpty (t : MaskTable) : (winTable t).isEmpty = t.isEmpty := by
  cases t <;> rfl

theorem addItem_keys {b : Bool} {t : MaskTable} {d m : Bytes} (ht : ∀ e ∈ t, TableKey e.1) (hd : TableKey d) :
    ∀ e ∈ addItem b t d m, TableKey e.1 := by
  unfold addItem
  split
  · simpa using hd
  · intro e he
    rcases List.mem_append.1 he with he | he
    · exact ht e he
    · simp only [List.mem_singleton] at he
      subst he
      exact hd

/-- Masking a key with `\` for `/` in path and table. -/
theorem maskKey_win {e e' : CrEnv} (hk : e'.keyLen = e.keyLen) (r : Bytes) (fuel : Nat) (t : MaskTable)
    (p key : Bytes) (ht : ∀ x ∈ t, TableKey x.1) (hp : RelKey p) :
    (maskKey e' (fun _ => r) fuel (winTable t) (p.map backslash) key =
      match maskKey e (fun _ => r) fuel t p key with
      | .ok m => .ok (winOut m)
      | .ub k => .ub k) ∧
    ∀ m, maskKey e (fun _ => r) fuel t p key = .ok m → ∀ x ∈ m.table, TableKey x.1 := by
  induction fuel generalizing t p key with
  | zero => simp [maskKey]
  | succ fuel ih =>
    have hd := relKey_dirKey hp
    have hm : ∀ k m, e'.mask k m = e.mask k m := fun k m => by unfold CrEnv.mask; rw [hk]
    have ih' : dirKey p = b!"/" ∨ ∀ key, _ ∧ _ := hd.imp_right fun h key => ih t (dirKey p) key ht h
    have hhead : ((winKey (dirKey p)).head? = some 47) = ((dirKey p).head? = some 47) :=
      propext (head_winKey hd)
    simp only [maskKey, package_backslash, dirKey_backslash hp, find_winTable ht hd, hhead, winTable_isEmpty,
      hk, hm]
    have hw : (dirKey p).head? ≠ some 47 → winKey (dirKey p) = (dirKey p).map backslash := by
      intro h
      unfold winKey
      rw [if_neg]
      intro he
      exact h (by rw [he]; rfl)
    split
    · cases hf : t.find (dirKey p) with
      | some m =>
        refine ⟨rfl, fun m hm x hx => ?_⟩
        simp only [Res.ok.injEq] at hm
        subst hm
        exact ht x hx
      | none =>
        dsimp only
        by_cases hh : (dirKey p).head? = some 47
        · simp only [hh, if_true, Res.bind_ok, ne_eq, not_true_eq_false, if_false]
          refine ⟨by rw [addItem_win]; rfl, fun m hm x hx => ?_⟩
          simp only [Res.ok.injEq] at hm
          subst hm
          exact addItem_keys ht hd x hx
        · have hi := (ih'.resolve_left fun h => hh (by rw [h]; rfl)) key
          simp only [hh, if_false, hw hh]
          rw [hi.1]
          cases hr : maskKey e (fun _ => r) fuel t (dirKey p) key with
          | ub k => simp
          | ok m =>
            simp only [Res.bind_ok, winOut]
            split
            · refine ⟨rfl, fun m' hm' x hx => ?_⟩
              simp only [Res.ok.injEq] at hm'
              subst hm'
              exact hi.2 m hr x hx
            · refine ⟨by rw [← hw hh, addItem_win], fun m' hm' x hx => ?_⟩
              simp only [Res.ok.injEq] at hm'
              subst hm'
              exact addItem_keys (hi.2 m hr) hd x hx
    · cases hf : t.find (dirKey p) with
      | some m =>
        refine ⟨rfl, fun m hm x hx => ?_⟩
        simp only [Res.ok.injEq] at hm
        subst hm
        exact ht x hx
      | none =>
        dsimp only
        by_cases hh : (dirKey p).head? = some 47
        · simp only [hh, if_true, Res.bind_ok, ne_eq, not_true_eq_false, if_false]
          refine ⟨by rw [addItem_win]; rfl, fun m hm x hx => ?_⟩
          simp only [Res.ok.injEq] at hm
          subst hm
          exact addItem_keys ht hd x hx
        · have hi := (ih'.resolve_left fun h => hh (by rw [h]; rfl)) (List.replicate e.keyLen 0)
          simp only [hh, if_false, hw hh]
          rw [hi.1]
          cases hr : maskKey e (fun _ => r) fuel t (dirKey p) (List.replicate e.keyLen 0) with
          | ub k => simp
          | ok m =>
            simp only [Res.bind_ok, winOut]
            split
            · refine ⟨rfl, fun m' hm' x hx => ?_⟩
              simp only [Res.ok.injEq] at hm'
              subst hm'
              exact hi.2 m hr x hx
            · refine ⟨by rw [← hw hh, addItem_win], fun m' hm' x hx => ?_⟩
              simp only [Res.ok.injEq] at hm'
              subst hm'
              exact addItem_keys (hi.2 m hr) hd x hx

/-- Encrypting with `\` for `/` in path and table: the same file. -/
theorem crEncrypt_win {e e' : CrEnv} (hC : e'.C = e.C) (hkey : e'.key = e.key) (hk : e'.keyLen = e.keyLen)
    {t : MaskTable} {p iv r inp : Bytes} {bad : Bool} {wOk : Nat → Bool} (ht : ∀ x ∈ t, TableKey x.1)
    (hp : RelKey p) {t2 : MaskTable} {out : Bytes} {ok : Bool}
    (h : crEncrypt e' (winTable t) (p.map backslash) iv (fun _ => r) inp bad wOk = .ok (t2, out, ok)) :
    ∃ t1, t2 = winTable t1 ∧ (∀ x ∈ t1, TableKey x.1) ∧
      crEncrypt e t p iv (fun _ => r) inp bad wOk = .ok (t1, out, ok) := by
  unfold crEncrypt at h ⊢
  split at h
  · rename_i hw
    simp only [Res.ok.injEq, Prod.mk.injEq] at h
    rw [if_pos hw]
    exact ⟨t, h.1.symm, ht, by simp [h.2]⟩
  · rename_i hw
    rw [if_neg hw]
    have hm := maskKey_win hk r (p.length + 2) t p e.key ht hp
    rw [List.length_map, hkey, hm.1] at h
    cases hr : maskKey e (fun _ => r) (p.length + 2) t p e.key with
    | ub k => simp [hr] at h
    | ok m =>
      rw [hr] at h
      simp only [Res.bind_ok, winOut] at h ⊢
      split at h
      · rename_i hneg
        simp only [Res.ok.injEq, Prod.mk.injEq] at h
        rw [if_pos hneg]
        exact ⟨m.table, h.1.symm, hm.2 m hr, by simp [h.2]⟩
      · rename_i hneg
        rw [if_neg hneg]
        have he : encBody e' m.key iv inp bad m.ret m.stored = encBody e m.key iv inp bad m.ret m.stored := by
          unfold encBody
          rw [hC, hk]
        rw [he] at h
        cases hb : encBody e m.key iv inp bad m.ret m.stored with
        | ub k => simp [hb] at h
        | ok x =>
          rw [hb] at h
          simp only [Res.bind_ok, Res.ok.injEq, Prod.mk.injEq] at h ⊢
          exact ⟨m.table, h.1.symm, hm.2 m hr, rfl, h.2.1, h.2.2⟩

end Semla
