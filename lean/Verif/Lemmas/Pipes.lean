import Verif.Lemmas.EndToEnd
import Verif.Spec.Pipes

/-! # Helper lemmas: the two processes -/

set_option linter.unusedSimpArgs false

namespace Semla

open Semla.Spec Semla.Props

/-! ## Cutting a message into records -/

theorem cutFuel_flatten (fuel : Nat) (b : Bytes) (h : b.length ≤ fuel) : (cutFuel fuel b).flatten = b := by
  induction fuel generalizing b with
  | zero => have : b = [] := List.length_eq_zero_iff.1 (by omega); subst this; rfl
  | succ fuel ih =>
    unfold cutFuel
    split
    · rename_i hb; simp [hb]
    · rename_i hb
      have hl : 0 < b.length := List.length_pos_iff.2 hb
      rw [List.flatten_cons, ih _ (by simp [maxPlain]; omega), List.take_append_drop]

theorem cutFuel_ne_nil (fuel : Nat) (b : Bytes) : ∀ x ∈ cutFuel fuel b, x ≠ [] ∧ x.length ≤ maxPlain := by
  induction fuel generalizing b with
  | zero => simp [cutFuel]
  | succ fuel ih =>
    unfold cutFuel
    split
    · simp
    · rename_i hb
      have hl : 0 < b.length := List.length_pos_iff.2 hb
      intro x hx
      rcases List.mem_cons.1 hx with rfl | hx
      · refine ⟨?_, by simp⟩
        intro h
        have := congrArg List.length h
        simp [maxPlain] at this
        exact hb this
      · exact ih _ x hx

theorem cutRecords_flatten (b : Bytes) : (cutRecords b).flatten = b := cutFuel_flatten _ _ (Nat.le_refl _)

theorem cutRecords_mem {b x : Bytes} (h : x ∈ cutRecords b) : x ≠ [] ∧ x.length ≤ maxPlain := cutFuel_ne_nil _ _ x h

theorem cutRecords_short {b : Bytes} (h0 : b ≠ []) (h : b.length ≤ maxPlain) : cutRecords b = [b] := by
  have hl : 0 < b.length := List.length_pos_iff.2 h0
  obtain ⟨n, hn⟩ : ∃ n, b.length = n + 1 := ⟨b.length - 1, by omega⟩
  unfold cutRecords
  rw [hn]
  unfold cutFuel
  rw [if_neg h0, List.take_of_length_le h, List.drop_of_length_le h]
  cases n <;> simp [cutFuel]

theorem cutRecords_ne_nil {b : Bytes} (h0 : b ≠ []) : cutRecords b ≠ [] := by
  intro h
  have := cutRecords_flatten b
  rw [h] at this
  exact h0 (by simpa using this.symm)

theorem cutRecords_first {b x : Bytes} {more : List Bytes} (h : cutRecords b = x :: more) :
    x = b.take maxPlain := by
  unfold cutRecords at h
  cases hn : b.length with
  | zero => rw [hn] at h; simp [cutFuel] at h
  | succ n =>
    rw [hn] at h
    unfold cutFuel at h
    split at h
    · cases h
    · simp at h; exact h.1.symm

/-! ## Alternating conversations -/

/-- From the point where the tool has received `a` and sent `sent` and the executable has received `b` and sent
`got`, the conversation goes on with these messages and replies. -/
def Dialogue (T L : Program) : List Bytes → List Bytes → List Bytes → List Bytes → List (Bytes × Bytes) → Prop
  | a, _, sent, _, [] => T a = (sent, true)
  | a, b, sent, got, (m, r) :: xs =>
    m ≠ [] ∧ m.length ≤ maxPlain ∧ r ≠ [] ∧
    (∀ pre suf, pre ++ suf = cutRecords r → suf ≠ [] → T (a ++ pre) = (sent ++ [m], false)) ∧
    L b = (got, false) ∧ L (b ++ [m]) = (got ++ [r], false) ∧
    Dialogue T L (a ++ cutRecords r) (b ++ [m]) (sent ++ [m]) (got ++ [r]) xs

/-- Where a conversation stands. -/
inductive Phase (size : Bytes → Nat) (a b : List Bytes) : List (Bytes × Bytes) → Net → Prop where
  | done : Phase size a b [] ⟨⟨a, []⟩, ⟨b, []⟩, [], []⟩
  | asking {m r xs p up j} : up ++ p = List.replicate j none ++ [some m] →
      Phase size a b ((m, r) :: xs) ⟨⟨a, p⟩, ⟨b, []⟩, up, []⟩
  | answering {m r xs recs x suf p down j} : recs ++ x :: suf = cutRecords r →
      down ++ p = List.replicate j none ++ some x :: suf.flatMap (wireRecord size) →
      Phase size a b ((m, r) :: xs) ⟨⟨a ++ recs, []⟩, ⟨b ++ [m], p⟩, [], down⟩

def futureWeight (size : Bytes → Nat) (xs : List (Bytes × Bytes)) : Nat :=
  (xs.map fun x => 2 * (wireMessage size x.1).length + 2 * (wireMessage size x.2).length).sum

/-- Bytes still to be written count twice, bytes still to be read once. -/
def netWeight (s : Net) : Nat :=
  2 * s.tool.pending.length + 2 * s.lve.pending.length + s.up.length + s.down.length

theorem wireMessage_short (size : Bytes → Nat) {m : Bytes} (h0 : m ≠ []) (h : m.length ≤ maxPlain) :
    wireMessage size m = List.replicate (size m) none ++ [some m] := by
  simp [wireMessage, cutRecords_short h0 h, wireRecord]

/-- What is left after the current exchange. -/
def phaseRest (size : Bytes → Nat) (s : Net) (b : List Bytes) : List (Bytes × Bytes) → Nat
  | [] => 0
  | (_, r) :: xs => (if s.lve.taken = b then 2 * (wireMessage size r).length else 0) + futureWeight size xs

theorem replicate_cons_inv {α : Type} {j : Nat} {x : Option α} {p q : List (Option α)}
    (h : x :: p = List.replicate j none ++ q) :
    (j = 0 ∧ x :: p = q) ∨ ∃ i, j = i + 1 ∧ x = none ∧ p = List.replicate i none ++ q := by
  cases j with
  | zero => exact Or.inl ⟨rfl, by simpa using h⟩
  | succ i =>
    rw [List.replicate_succ, List.cons_append] at h
    injection h with h1 h2
    exact Or.inr ⟨i, rfl, h1, h2⟩

theorem wireRecord_flatMap_cons (size : Bytes → Nat) (x : Bytes) (suf : List Bytes) :
    (x :: suf).flatMap (wireRecord size) =
      List.replicate (size x) none ++ some x :: suf.flatMap (wireRecord size) := by
  simp [wireRecord]

theorem append_singleton_ne {α : Type} (l : List α) (x : α) : l ++ [x] ≠ l := by
  intro h
  have := congrArg List.length h
  simp at this

/-- One step: the conversation stands somewhere, and less is to be done. -/
theorem phase_step {size : Bytes → Nat} {cap : Nat} {T L : Program} {s s' : Net}
    (h : Step size cap T L s s') {a b sent got : List Bytes} {xs : List (Bytes × Bytes)}
    (hd : Dialogue T L a b sent got xs) (hp : Phase size a b xs s) :
    ∃ a' b' sent' got' xs', Dialogue T L a' b' sent' got' xs' ∧ Phase size a' b' xs' s' ∧
      a' ++ xs'.flatMap (fun x => cutRecords x.2) = a ++ xs.flatMap (fun x => cutRecords x.2) ∧
      b' ++ xs'.map (·.1) = b ++ xs.map (·.1) ∧
      netWeight s' + phaseRest size s' b' xs' + 1 = netWeight s + phaseRest size s b xs := by
  cases hp with
  | done =>
    -- nothing is left to be done, so neither side can move
    cases h
  | @asking m r ys p up j hw =>
    obtain ⟨hm0, hml, hr0, hT, hL, hL', hrest⟩ := hd
    have hTa : T a = (sent ++ [m], false) := by simpa using hT [] (cutRecords r) rfl (cutRecords_ne_nil hr0)
    cases h with
    | @toolWrites _ x more _ _ _ hcap =>
      refine ⟨a, b, sent, got, (m, r) :: ys, ⟨hm0, hml, hr0, hT, hL, hL', hrest⟩, .asking (j := j) (by simpa using hw), rfl, rfl, ?_⟩
      simp [netWeight, phaseRest]; omega
    | @lveReads _ _ x up _ hend =>
      rcases replicate_cons_inv (x := x) (p := up ++ p) (by simpa using hw) with ⟨-, h1⟩ | ⟨i, rfl, rfl, h1⟩
      · injection h1 with h1 h2
        have hup : up = [] := List.append_eq_nil_iff.1 h2 |>.1
        have hpp : p = [] := List.append_eq_nil_iff.1 h2 |>.2
        subst h1 hup hpp
        have hcut := cutRecords_ne_nil hr0
        cases hc : cutRecords r with
        | nil => exact absurd hc hcut
        | cons x suf =>
          have hph := Phase.answering (size := size) (a := a) (b := b) (m := m) (r := r) (xs := ys) (recs := []) (x := x)
            (suf := suf) (p := wireMessage size r) (down := []) (j := size x) (by simp [hc])
            (by simp only [List.nil_append, wireMessage, hc, wireRecord_flatMap_cons])
          refine ⟨a, b, sent, got, (m, r) :: ys, ⟨hm0, hml, hr0, hT, hL, hL', hrest⟩, ?_, rfl, rfl, ?_⟩
          · simpa [Side.take, hL, hL'] using hph
          · simp [netWeight, phaseRest, Side.take, hL, hL']; omega
      · refine ⟨a, b, sent, got, (m, r) :: ys, ⟨hm0, hml, hr0, hT, hL, hL', hrest⟩, .asking (j := i) h1, rfl, rfl, ?_⟩
        simp [netWeight, phaseRest, Side.take]; omega
  | @answering m r ys recs x suf p down j hrec hw =>
    obtain ⟨hm0, hml, hr0, hT, hL, hL', hrest⟩ := hd
    have hTa : T (a ++ recs) = (sent ++ [m], false) := hT recs (x :: suf) hrec (by simp)
    have hnb : b ++ [m] ≠ b := append_singleton_ne _ _
    cases h with
    | @lveWrites _ _ y more _ _ hcap =>
      refine ⟨a, b, sent, got, (m, r) :: ys, ⟨hm0, hml, hr0, hT, hL, hL', hrest⟩,
        .answering (j := j) hrec (by simpa using hw), rfl, rfl, ?_⟩
      simp [netWeight, phaseRest]; omega
    | @toolReads _ _ _ y down hend =>
      rcases replicate_cons_inv (x := y) (p := down ++ p) (by simpa using hw) with ⟨-, h1⟩ | ⟨i, rfl, rfl, h1⟩
      · injection h1 with h1 h2
        subst h1
        cases suf with
        | cons x' suf =>
          have h3 : (recs ++ [x]) ++ x' :: suf = cutRecords r := by simpa using hrec
          have hTb : T (a ++ (recs ++ [x])) = (sent ++ [m], false) := hT _ _ h3 (by simp)
          refine ⟨a, b, sent, got, (m, r) :: ys, ⟨hm0, hml, hr0, hT, hL, hL', hrest⟩, ?_, rfl, rfl, ?_⟩
          · have := Phase.answering (size := size) (a := a) (b := b) (m := m) (xs := ys) (p := p) (down := down)
              (j := size x') h3 (by rw [h2, wireRecord_flatMap_cons])
            simpa [Side.take, hTa, List.append_assoc, hTb] using this
          · simp [netWeight, phaseRest, Side.take, hTa, hTb]; omega
        | nil =>
          simp only [List.flatMap_nil, List.append_eq_nil_iff] at h2
          obtain ⟨rfl, rfl⟩ := h2
          have ha : a ++ recs ++ [x] = a ++ cutRecords r := by rw [← hrec]; simp
          cases ys with
          | nil =>
            have hend' : T (a ++ cutRecords r) = (sent ++ [m], true) := hrest
            refine ⟨a ++ cutRecords r, b ++ [m], sent ++ [m], got ++ [r], [], hrest, ?_, by simp, by simp, ?_⟩
            · have := Phase.done (size := size) (a := a ++ cutRecords r) (b := b ++ [m])
              simpa [Side.take, hTa, ha, hend', -List.append_assoc] using this
            · simp [netWeight, phaseRest, Side.take, hTa, ha, hend', futureWeight, -List.append_assoc]
          | cons y ys =>
            obtain ⟨m2, r2⟩ := y
            obtain ⟨k0, kl, kr, kT, kL, kL', krest⟩ := id hrest
            have hTb : T (a ++ cutRecords r) = (sent ++ [m] ++ [m2], false) := by
              simpa using kT [] (cutRecords r2) rfl (cutRecords_ne_nil kr)
            have hlen : (sent ++ [m] ++ [m2]).drop (sent ++ [m]).length = [m2] := List.drop_left
            refine ⟨a ++ cutRecords r, b ++ [m], sent ++ [m], got ++ [r], (m2, r2) :: ys, hrest, ?_, by simp, by simp, ?_⟩
            · have := Phase.asking (size := size) (a := a ++ cutRecords r) (b := b ++ [m]) (m := m2) (r := r2) (xs := ys)
                (p := wireMessage size m2) (up := []) (j := size m2) (by simp [wireMessage_short size k0 kl])
              simpa only [Side.take, hTa, ha, hTb, hlen, List.flatMap_cons, List.flatMap_nil, List.append_nil] using this
            · simp only [netWeight, phaseRest, Side.take, hTa, ha, hTb, hlen, List.flatMap_cons, List.flatMap_nil,
                List.append_nil, futureWeight, List.map_cons, List.sum_cons, if_true, if_neg hnb, List.length_nil,
                List.length_cons]
              omega
      · refine ⟨a, b, sent, got, (m, r) :: ys, ⟨hm0, hml, hr0, hT, hL, hL', hrest⟩, .answering (j := i) hrec h1, rfl, rfl, ?_⟩
        simp [netWeight, phaseRest, Side.take]; omega

/-- Where nothing can happen, all is done. -/
theorem phase_still {size : Bytes → Nat} {cap : Nat} (hcap : 0 < cap) {T L : Program} {s : Net}
    (h : Still size cap T L s) {a b sent got : List Bytes} {xs : List (Bytes × Bytes)}
    (hd : Dialogue T L a b sent got xs) (hp : Phase size a b xs s) :
    xs = [] ∧ s = ⟨⟨a, []⟩, ⟨b, []⟩, [], []⟩ := by
  cases hp with
  | done => exact ⟨rfl, rfl⟩
  | @asking m r ys p up j hw =>
    obtain ⟨hm0, hml, hr0, hT, hL, -⟩ := hd
    cases up with
    | nil =>
      cases p with
      | nil => simp at hw
      | cons x p => exact absurd (Step.toolWrites (by simpa using hcap)) (h _)
    | cons x up => exact absurd (Step.lveReads (by rw [hL])) (h _)
  | @answering m r ys recs x suf p down j hrec hw =>
    obtain ⟨hm0, hml, hr0, hT, -⟩ := hd
    cases down with
    | nil =>
      cases p with
      | nil => simp at hw
      | cons x p => exact absurd (Step.lveWrites (by simpa using hcap)) (h _)
    | cons y down => exact absurd (Step.toolReads (by rw [hT recs (x :: suf) hrec (by simp)])) (h _)

/-- An alternating conversation comes to its end however the processes are scheduled. -/
theorem dialogue_ends {size : Bytes → Nat} {cap : Nat} (hcap : 0 < cap) {T L : Program} {xs : List (Bytes × Bytes)}
    (hL0 : L [] = ([], false)) (hd : Dialogue T L [] [] [] [] xs) :
    EndsWith size cap T L fun a b => a = xs.flatMap (fun x => cutRecords x.2) ∧ b = xs.map (·.1) := by
  have hstart : Phase size [] [] xs (.start size T L) ∧
      netWeight (.start size T L) + phaseRest size (.start size T L) [] xs = futureWeight size xs := by
    cases xs with
    | nil =>
      have hT : T [] = ([], true) := hd
      refine ⟨?_, ?_⟩
      · have := Phase.done (size := size) (a := []) (b := [])
        simpa [Net.start, Side.start, hT, hL0] using this
      · simp [netWeight, phaseRest, futureWeight, Net.start, Side.start, hT, hL0]
    | cons y ys =>
      obtain ⟨m, r⟩ := y
      obtain ⟨hm0, hml, hr0, hT, -⟩ := hd
      have hTa : T [] = ([m], false) := by simpa using hT [] (cutRecords r) rfl (cutRecords_ne_nil hr0)
      refine ⟨?_, ?_⟩
      · have := Phase.asking (size := size) (a := []) (b := []) (m := m) (r := r) (xs := ys)
          (p := wireMessage size m) (up := []) (j := size m) (by simp [wireMessage_short size hm0 hml])
        simpa [Net.start, Side.start, hTa, hL0] using this
      · simp [netWeight, phaseRest, futureWeight, Net.start, Side.start, hTa, hL0]; omega
  have key : ∀ n s, Steps size cap T L n (.start size T L) s → ∃ a b sent got ys, Dialogue T L a b sent got ys ∧
      Phase size a b ys s ∧ a ++ ys.flatMap (fun x => cutRecords x.2) = xs.flatMap (fun x => cutRecords x.2) ∧
      b ++ ys.map (·.1) = xs.map (·.1) ∧ n + (netWeight s + phaseRest size s b ys) = futureWeight size xs := by
    intro n s h
    generalize hs0 : Net.start size T L = s0 at h
    induction h with
    | nil s => subst hs0; exact ⟨[], [], [], [], xs, hd, hstart.1, rfl, rfl, by rw [hstart.2]; omega⟩
    | @snoc n s0 t u _ h1 ih =>
      obtain ⟨a, b, sent, got, ys, g1, g2, g3, g4, g5⟩ := ih hs0
      obtain ⟨a', b', sent', got', ys', k1, k2, k3, k4, k5⟩ := phase_step h1 g1 g2
      exact ⟨a', b', sent', got', ys', k1, k2, k3.trans g3, k4.trans g4, by omega⟩
  refine ⟨futureWeight size xs, fun n s h => ?_⟩
  obtain ⟨a, b, sent, got, ys, g1, g2, g3, g4, g5⟩ := key n s h
  refine ⟨by omega, fun hst => ?_⟩
  obtain ⟨rfl, rfl⟩ := phase_still hcap hst g1 g2
  exact ⟨by simpa using g3, by simpa using g4⟩

/-! ## Calls -/

/-- The message of a call. -/
def callMessage : Call → Bytes
  | .version _ b => sendNumber .version b
  | .libpath s => line2 CmdId.lib.name (decNat s.length) ++ s
  | .feature s => line2 CmdId.feature.name (decNat s.length) ++ s
  | .returnFeature s => line2 CmdId.returnFeature.name (decNat s.length) ++ s
  | .license s => line2 CmdId.license.name (decNat s.length) ++ s
  | .returnLicense s => line2 CmdId.returnLicense.name (decNat s.length) ++ s
  | .file s => line2 CmdId.file.name (decNat s.length) ++ s

theorem proper_arg {A : CmdId → Bytes → Prop} {c : Call} (hp : Proper A c) {k : CmdId} {s : Bytes}
    (h : Argument c = some (k, s)) : cstr s = s ∧ (cstr s).length < 2 ^ 63 ∧ s.length ≤ 16000 ∧ A k s := by
  obtain ⟨h1, h2, h3⟩ := hp.2 k s h
  have e : cstr s = s := cstr_of_noNul fun b hb h => h1 (h ▸ hb)
  exact ⟨e, by rw [e]; omega, h2, h3⟩

theorem version_ne_nil {b : Int} (h1 : -2 ^ 31 ≤ b) (h2 : b < 2 ^ 31) : sendNumber .version b ≠ [] := by
  rw [send_number_aux _ _ (by unfold longMin; omega) (by unfold longMax; omega)]; simp [line2]

theorem writes_cons (ws : List WEv) : Writes (.written :: ws) ws := ⟨0, rfl⟩

/-- A call that waits for its reply. -/
theorem call_blocked {A : CmdId → Bytes → Prop} {c : Call} (hp : Proper A c) {inn c' : Conn} (ws : List WEv)
    (wire : List Bytes) (h : readCommand (fun _ => true) inn (some none) = .ok (.blocked, c')) :
    c.run ⟨inn, .written :: ws, wire⟩ = .ok (.blocked, ⟨c', ws, wire ++ [callMessage c]⟩) := by
  cases c with
  | version a b =>
    obtain ⟨h1, h2⟩ := hp.1 a b rfl
    have hne := version_ne_nil h1 h2
    simp only [Call.run, toolVersion, Tool.write, sslWriteMessage, if_neg hne]
    rw [if_neg (by omega)]
    simp [expectCommand, h, ToolOut.plain, callMessage]
  | _ =>
    obtain ⟨e, hl, -⟩ := proper_arg hp rfl
    simp only [Call.run, toolLibpath, toolReturnFeature, toolReturnLicense, toolFeature, toolLicense, toolFile, sendExpectYes,
      toolSend_writes (t := ⟨inn, .written :: ws, wire⟩) (writes_cons ws) _ _ hl, Res.bind_ok, expectCommand, expectCommands, h,
      ToolOut.plain, ToolOut.withFile, callMessage, e]

theorem expect_done (ex : CmdId) (id : CmdId) (n : Int) (d : Bytes) :
    ∃ o, o ≠ .blocked ∧ (∀ cmd loc, o = .success cmd loc → cmd = ⟨id, n, d.length, dataOf id d⟩ ∧ loc = some none) ∧
      ∀ (t : Tool) c',
        readCommand (fun _ => true) t.inn (some none) = .ok (.done ⟨id, n, d.length, dataOf id d⟩ (some none), c') →
        expectCommand (fun _ => true) t ex (some none) = .ok (o, { t with inn := c' }) := by
  by_cases h1 : id = .error
  · subst h1
    apply Exists.intro; refine ⟨?_, ?_, fun t c' h => ?_⟩
    rotate_left 2
    · simp only [expectCommand, h, Res.bind_ok, if_true, dataOf, CmdId.form, or_true, errorSetData_ok]
      rfl
    · simp
    · simp
  · by_cases h2 : id = ex
    · refine ⟨.success ⟨id, n, d.length, dataOf id d⟩ (some none), by simp, ?_, fun t c' h => ?_⟩
      · rintro cmd loc h; injection h with h3 h4; exact ⟨h3.symm, h4.symm⟩
      · simp only [expectCommand, h, Res.bind_ok, if_neg h1, h2, ne_eq, not_true_eq_false, if_false]
        rw [if_neg (h2 ▸ h1)]
    · apply Exists.intro; refine ⟨?_, ?_, fun t c' h => ?_⟩
      rotate_left 2
      · simp only [expectCommand, h, Res.bind_ok, if_neg h1, ne_eq, h2, not_false_eq_true, if_true, errorSet_ok]
        rfl
      · simp
      · simp

theorem expects_done (ex : CmdId) (more : List CmdId) (id : CmdId) (n : Int) (d : Bytes) :
    ∃ o, o ≠ .blocked ∧ (∀ cmd loc, o = .success cmd loc → cmd = ⟨id, n, d.length, dataOf id d⟩ ∧ loc = some none ∧
        id ∈ ex :: more) ∧
      ∀ (t : Tool) c',
        readCommand (fun _ => true) t.inn (some none) = .ok (.done ⟨id, n, d.length, dataOf id d⟩ (some none), c') →
        expectCommands (fun _ => true) t ex more (some none) = .ok (o, { t with inn := c' }) := by
  by_cases h1 : id = .error
  · subst h1
    apply Exists.intro; refine ⟨?_, ?_, fun t c' h => ?_⟩
    rotate_left 2
    · simp only [expectCommands, h, Res.bind_ok, if_true, dataOf, CmdId.form, or_true, errorSetData_ok]
      rfl
    · simp
    · simp
  · by_cases h2 : id ∈ ex :: more
    · refine ⟨.success ⟨id, n, d.length, dataOf id d⟩ (some none), by simp, ?_, fun t c' h => ?_⟩
      · rintro cmd loc h; injection h with h3 h4; exact ⟨h3.symm, h4.symm, h2⟩
      · simp only [expectCommands, h, Res.bind_ok, if_neg h1, h2, if_true]
    · apply Exists.intro; refine ⟨?_, ?_, fun t c' h => ?_⟩
      rotate_left 2
      · simp only [expectCommands, h, Res.bind_ok, if_neg h1, h2, if_false, if_true, (expectedText_ok id ex more).1,
          errorSetLiteral, errorNewLiteral]
        rfl
      · simp
      · simp

/-- A call that gets a reply. -/
theorem call_done {A : CmdId → Bytes → Prop} {c : Call} (hp : Proper A c) (id : CmdId) (n : Int) (d : Bytes) :
    ∃ out, out ≠ .blocked ∧ ∀ inn c' ws wire,
      readCommand (fun _ => true) inn (some none) = .ok (.done ⟨id, n, d.length, dataOf id d⟩ (some none), c') →
      c.run ⟨inn, .written :: ws, wire⟩ = .ok (out, ⟨c', ws, wire ++ [callMessage c]⟩) := by
  have yes : ∀ k s, (cstr s).length < 2 ^ 63 → cstr s = s → ∃ out, out ≠ .blocked ∧ ∀ inn c' ws wire,
      readCommand (fun _ => true) inn (some none) = .ok (.done ⟨id, n, d.length, dataOf id d⟩ (some none), c') →
      sendExpectYes (fun _ => true) ⟨inn, .written :: ws, wire⟩ k s (some none) =
        .ok (out, ⟨c', ws, wire ++ [line2 k.name (decNat s.length) ++ s]⟩) := by
    intro k s hl e
    obtain ⟨o, h1, h2, h3⟩ := expect_done .yes id n d
    cases o with
    | blocked => exact absurd rfl h1
    | failed loc =>
      refine ⟨.failed loc, by simp, fun inn c' ws wire h => ?_⟩
      have := h3 ⟨inn, ws, wire ++ [line2 k.name (decNat s.length) ++ s]⟩ c' h
      simp only [sendExpectYes, toolSend_writes (t := ⟨inn, .written :: ws, wire⟩) (writes_cons ws) _ _ hl, Res.bind_ok, e, this]
    | success cmd loc =>
      refine ⟨.success () loc, by simp, fun inn c' ws wire h => ?_⟩
      have := h3 ⟨inn, ws, wire ++ [line2 k.name (decNat s.length) ++ s]⟩ c' h
      simp only [sendExpectYes, toolSend_writes (t := ⟨inn, .written :: ws, wire⟩) (writes_cons ws) _ _ hl, Res.bind_ok, e, this]
  have plain : ∀ {o : ToolOut Unit}, o ≠ .blocked → o.plain ≠ .blocked := by
    intro o h
    cases o <;> simp [ToolOut.plain] at *
  cases c with
  | version a b =>
    obtain ⟨h1, h2⟩ := hp.1 a b rfl
    have hne := version_ne_nil h1 h2
    have hz : ¬ ((sendNumber .version b).length : Int) < 0 := by omega
    obtain ⟨o, g1, g2, g3⟩ := expect_done .version id n d
    cases o with
    | blocked => exact absurd rfl g1
    | failed loc =>
      refine ⟨.failed loc, by simp, fun inn c' ws wire h => ?_⟩
      have := g3 ⟨inn, ws, wire ++ [sendNumber .version b]⟩ c' h
      simp only [Call.run, toolVersion, Tool.write, sslWriteMessage, if_neg hne, if_neg hz, this, Res.bind_ok,
        ToolOut.plain, callMessage]
    | success cmd loc =>
      obtain ⟨rfl, rfl⟩ := g2 _ _ rfl
      by_cases hlow : n < a
      · apply Exists.intro; refine ⟨?_, fun inn c' ws wire h => ?_⟩
        rotate_left
        · have := g3 ⟨inn, ws, wire ++ [sendNumber .version b]⟩ c' h
          simp only [Call.run, toolVersion, Tool.write, sslWriteMessage, if_neg hne, if_neg hz, this, Res.bind_ok,
            ToolOut.plain, callMessage, if_pos hlow, errorSet_ok]
          rfl
        · simp
      · by_cases hhigh : n > b
        · apply Exists.intro; refine ⟨?_, fun inn c' ws wire h => ?_⟩
          rotate_left
          · have := g3 ⟨inn, ws, wire ++ [sendNumber .version b]⟩ c' h
            simp only [Call.run, toolVersion, Tool.write, sslWriteMessage, if_neg hne, if_neg hz, this, Res.bind_ok,
              ToolOut.plain, callMessage, if_neg hlow, if_pos hhigh, errorSet_ok]
            rfl
          · simp
        · apply Exists.intro; refine ⟨?_, fun inn c' ws wire h => ?_⟩
          rotate_left
          · have := g3 ⟨inn, ws, wire ++ [sendNumber .version b]⟩ c' h
            simp only [Call.run, toolVersion, Tool.write, sslWriteMessage, if_neg hne, if_neg hz, this, Res.bind_ok,
              ToolOut.plain, callMessage, if_neg hlow, if_neg hhigh]
            rfl
          · simp
  | libpath s =>
    obtain ⟨e, hl, -⟩ := proper_arg hp rfl
    obtain ⟨o, g1, g2⟩ := yes .lib s hl e
    exact ⟨o.plain, plain g1, fun inn c' ws wire h => by simp only [Call.run, toolLibpath, g2 _ _ ws wire h, Res.bind_ok, callMessage]⟩
  | returnFeature s =>
    obtain ⟨e, hl, -⟩ := proper_arg hp rfl
    obtain ⟨o, g1, g2⟩ := yes .returnFeature s hl e
    exact ⟨o.plain, plain g1, fun inn c' ws wire h => by
      simp only [Call.run, toolReturnFeature, g2 _ _ ws wire h, Res.bind_ok, callMessage]⟩
  | returnLicense s =>
    obtain ⟨e, hl, -⟩ := proper_arg hp rfl
    obtain ⟨o, g1, g2⟩ := yes .returnLicense s hl e
    exact ⟨o.plain, plain g1, fun inn c' ws wire h => by
      simp only [Call.run, toolReturnLicense, g2 _ _ ws wire h, Res.bind_ok, callMessage]⟩
  | feature s =>
    obtain ⟨e, hl, -⟩ := proper_arg hp rfl
    obtain ⟨o, g1, g2, g3⟩ := expects_done .yes [.no] id n d
    cases o with
    | blocked => exact absurd rfl g1
    | failed loc =>
      refine ⟨.failed loc, by simp, fun inn c' ws wire h => ?_⟩
      have := g3 ⟨inn, ws, wire ++ [line2 CmdId.feature.name (decNat s.length) ++ s]⟩ c' h
      simp only [Call.run, toolFeature, toolSend_writes (t := ⟨inn, .written :: ws, wire⟩) (writes_cons ws) _ _ hl, Res.bind_ok, e, this,
        ToolOut.plain, callMessage]
    | success cmd loc =>
      obtain ⟨rfl, rfl, hm⟩ := g2 _ _ rfl
      simp only [List.mem_cons, List.not_mem_nil, or_false] at hm
      rcases hm with rfl | rfl
      all_goals
        apply Exists.intro; refine ⟨?_, fun inn c' ws wire h => ?_⟩
        rotate_left
        · have := g3 ⟨inn, ws, wire ++ [line2 CmdId.feature.name (decNat s.length) ++ s]⟩ c' h
          simp only [Call.run, toolFeature, toolSend_writes (t := ⟨inn, .written :: ws, wire⟩) (writes_cons ws) _ _ hl, Res.bind_ok, e, this,
            ToolOut.plain, callMessage, if_true, if_false, reduceCtorEq, dataOf, CmdId.form, true_or, errorSetData_ok]
          rfl
        · simp
  | license s =>
    obtain ⟨e, hl, -⟩ := proper_arg hp rfl
    obtain ⟨o, g1, g2, g3⟩ := expects_done .yes [.notSimple, .no] id n d
    cases o with
    | blocked => exact absurd rfl g1
    | failed loc =>
      refine ⟨.failed loc, by simp, fun inn c' ws wire h => ?_⟩
      have := g3 ⟨inn, ws, wire ++ [line2 CmdId.license.name (decNat s.length) ++ s]⟩ c' h
      simp only [Call.run, toolLicense, toolSend_writes (t := ⟨inn, .written :: ws, wire⟩) (writes_cons ws) _ _ hl, Res.bind_ok, e, this,
        ToolOut.plain, callMessage]
    | success cmd loc =>
      obtain ⟨rfl, rfl, hm⟩ := g2 _ _ rfl
      simp only [List.mem_cons, List.not_mem_nil, or_false] at hm
      rcases hm with rfl | rfl | rfl
      all_goals
        apply Exists.intro; refine ⟨?_, fun inn c' ws wire h => ?_⟩
        rotate_left
        · have := g3 ⟨inn, ws, wire ++ [line2 CmdId.license.name (decNat s.length) ++ s]⟩ c' h
          simp only [Call.run, toolLicense, toolSend_writes (t := ⟨inn, .written :: ws, wire⟩) (writes_cons ws) _ _ hl, Res.bind_ok, e, this,
            ToolOut.plain, callMessage, if_true, if_false, reduceCtorEq, dataOf, CmdId.form, true_or, errorSetData_ok,
            errorSetLiteral, errorNewLiteral]
          rfl
        · simp
  | file s =>
    obtain ⟨e, hl, -⟩ := proper_arg hp rfl
    obtain ⟨o, g1, g2, g3⟩ := expect_done .fileCont id n d
    cases o with
    | blocked => exact absurd rfl g1
    | failed loc =>
      refine ⟨.failed loc, by simp, fun inn c' ws wire h => ?_⟩
      have := g3 ⟨inn, ws, wire ++ [line2 CmdId.file.name (decNat s.length) ++ s]⟩ c' h
      simp only [Call.run, toolFile, toolSend_writes (t := ⟨inn, .written :: ws, wire⟩) (writes_cons ws) _ _ hl, Res.bind_ok, e, this,
        ToolOut.withFile, callMessage]
    | success cmd loc =>
      apply Exists.intro; refine ⟨?_, fun inn c' ws wire h => ?_⟩
      rotate_left
      · have := g3 ⟨inn, ws, wire ++ [line2 CmdId.file.name (decNat s.length) ++ s]⟩ c' h
        simp only [Call.run, toolFile, toolSend_writes (t := ⟨inn, .written :: ws, wire⟩) (writes_cons ws) _ _ hl, Res.bind_ok, e, this,
          ToolOut.withFile, callMessage, if_true]
        rfl
      · simp
end Semla
