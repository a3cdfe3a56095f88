import Verif.Lemmas.LveCases

/-! # Helper lemmas: invariants of a session -/

set_option linter.unusedSimpArgs false

namespace Semla

open Semla.Spec

theorem accepts_unique {msg : Bytes} {c c' : CmdId} {n n' : Int} {len len' : Nat} (h : Accepts msg c n len)
    (h' : Accepts msg c' n' len') : c = c' ∧ n = n' ∧ len = len' := by
  have h1 := parse_of_accepts h 100 []
  rw [parse_of_accepts h' 100 []] at h1
  simp only [Res.ok.injEq, Prod.mk.injEq, Command.mk.injEq] at h1
  exact ⟨h1.2.1.1.symm, h1.2.1.2.1.symm, h1.2.1.2.2.1.symm⟩

theorem rejected_ne_valid {msg : Bytes} {g : Grammar} (h : Rejected msg g) : g ≠ .valid := by
  cases h <;> simp

theorem rejected_not_accepts {msg : Bytes} {g : Grammar} (h : Rejected msg g) {c : CmdId} {n : Int} {len : Nat} :
    ¬ Accepts msg c n len := by
  intro ha
  obtain ⟨m, h1, -⟩ := parse_of_rejected h (cap := 100) (by decide) []
  rw [parse_of_accepts ha] at h1
  simp only [Res.ok.injEq, Prod.mk.injEq] at h1
  exact rejected_ne_valid h h1.1.symm

theorem refusable_iff {s : LveState} {msg : Bytes} {c : CmdId} {n : Int} {len : Nat} (h : Accepts msg c n len) :
    Refusable s msg ↔ ¬ Allowed s c := by
  constructor
  · rintro (⟨g, hg⟩ | ⟨c', n', len', ha, hn⟩)
    · exact absurd h (rejected_not_accepts hg)
    · rw [(accepts_unique h ha).1]; exact hn
  · intro hn; exact Or.inr ⟨c, n, len, h, hn⟩

/-- The error a refused tool gets is a sensible one. -/
def ErrInv (st : LveSt) : Prop :=
  (st.approved = true ∨ ∃ m, st.toolErrMsg = some m) ∧
  ∃ c : Nat, st.toolErrType = c ∧ (c = 0 ∨ c = 4 ∨ c = 5 ∨ c = 7 ∨ c = 8) ∧ (st.approved = false → c ≠ 0)

theorem errInv_start {conf : LveConf} {k : Option Bytes} {st : LveSt} (h : lveStart conf k = .ok st) :
    ErrInv st := by
  rcases start_eq h with rfl | rfl
  · exact ⟨Or.inl rfl, 0, rfl, Or.inl rfl, by simp⟩
  · exact ⟨Or.inr ⟨_, rfl⟩, 5, rfl, Or.inr (Or.inr (Or.inl rfl)), by simp⟩

theorem feature_frame {conf : LveConf} {w : World} {st st' : LveSt} {cmd : Command} {out : List Bytes}
    {ok : Bool} (h : lveFeature conf w false st cmd = .ok (st', out, ok)) :
    ∃ b cs, st' = { st with hasMgr := b, calls := st.calls ++ cs } := by
  rcases feature_cases h with ⟨m, -, -, rfl⟩ | ⟨f, cs, -, -, rfl, -⟩
  · exact ⟨_, _, rfl⟩
  · exact ⟨true, cs ++ [.checkout f], by simp⟩

theorem returnFeature_frame {conf : LveConf} {w : World} {st st' : LveSt} {cmd : Command} {out : List Bytes}
    (h : lveReturnFeature conf w st cmd = .ok (st', out)) :
    ∃ b cs, st' = { st with hasMgr := b, calls := st.calls ++ cs } := by
  rcases returnFeature_cases h with ⟨m, -, -, rfl⟩ | ⟨f, cs, -, -, rfl, -⟩
  · exact ⟨_, _, rfl⟩
  · exact ⟨true, cs ++ [.checkin f], by simp⟩

theorem file_frame {conf : LveConf} {w : World} {st st' : LveSt} {cmd : Command} {out : List Bytes}
    (h : lveFile conf w st cmd = .ok (st', out)) : ∃ t, st' = { st with cr := t } := by
  rcases file_cases h with ⟨-, rfl, -⟩ | ⟨-, h, -⟩
  · exact ⟨st'.cr, rfl⟩
  · exact h

theorem errInv_lib {conf : LveConf} {w : World} {st st' : LveSt} {cmd : Command} {out : List Bytes} {ok : Bool}
    (h : lveLibpath conf w false st cmd = .ok (st', out, ok)) (hi : ErrInv st) : ErrInv st' := by
  obtain ⟨-, h2, h3, h4, -, h6⟩ := lib_frame h
  obtain ⟨hi1, c, hc1, hc2, hc3⟩ := hi
  refine ⟨?_, ?_⟩
  · cases ha : st'.approved with
    | true => exact Or.inl rfl
    | false =>
      cases hm : st'.toolErrMsg with
      | some m => exact Or.inr ⟨m, rfl⟩
      | none =>
        obtain ⟨h7, h8⟩ := h6 ha hm
        rcases hi1 with h | ⟨m, h⟩
        · rw [h7] at h; cases h
        · rw [h8] at h; cases h
  · rcases h3 with h3 | h3 | h3 | h3
    · refine ⟨c, by rw [h3, hc1], hc2, ?_⟩
      intro ha h0
      -- the type did not change, so this is the state before, or a failed check
      rcases lib_cases h with ⟨-, -, -, rfl⟩ | ⟨buf, data, -, -, -, ⟨-, -, -, rfl⟩ | ⟨st1, m, hg, -, -, rfl⟩ |
        ⟨st1, hg, -, hv⟩⟩
      · exact hc3 ha h0
      · exact hc3 ha h0
      · simp only at h3; rw [hc1, h0] at h3; simp at h3
      · have hap : st'.approved = st.approved := by
          have h1 : st'.approved = st1.approved := by
            rcases validateDirectory_cases hv with ⟨-, rfl, -⟩ | ⟨m, -, -, rfl⟩ <;> rfl
          rw [h1]
          rcases global_cases hg with ⟨-, rfl, -⟩ | ⟨m, -, -, -, -, -, rfl⟩ | ⟨g, cs, -, -, -, rfl, -⟩ <;> rfl
        rw [hap] at ha
        exact hc3 ha h0
    · exact ⟨4, h3, by simp, by simp⟩
    · exact ⟨7, h3, by simp, by simp⟩
    · exact ⟨8, h3, by simp, by simp⟩

theorem errInv_step {conf : LveConf} {w : World} {st st' : LveSt} {msg : Bytes} {out : List Bytes}
    (hi : ErrInv st) (h : Effect conf w st msg st' out) : ErrInv st' := by
  cases h with
  | refused => exact hi
  | low => exact hi
  | version => exact hi
  | tools => exact hi
  | lib _ _ _ h => exact (errInv_lib h hi : ErrInv _)
  | feature _ _ _ h => obtain ⟨b, cs, rfl⟩ := feature_frame h; exact hi
  | returnFeature _ _ _ h => obtain ⟨b, cs, rfl⟩ := returnFeature_frame h; exact hi
  | license => exact hi
  | file _ _ _ h => obtain ⟨t, rfl⟩ := file_frame h; exact hi

theorem errInv_session {conf : LveConf} {k : Option Bytes} {turns : List (World × Bytes)} {st : LveSt}
    {outs : List (List Bytes)} (h : Session conf k turns st outs) : ErrInv st := by
  obtain ⟨st0, h1, h2⟩ := h
  exact run_inv (fun _ _ _ _ _ hi he => errInv_step hi he) (errInv_start h1) h2

/-! ### Replies of handled commands -/

/-- Anything but an `ERROR 1`. -/
def NotRefusal (out : List Bytes) : Prop := ∀ r ∈ out, ∀ t, ¬ ErrorReply 1 t r

theorem ErrOut.notRefusal {w : World} {c : Nat} {t : Bytes} {out : List Bytes} (h : ErrOut w c t out)
    (hc : c ≠ 1) : NotRefusal out := fun r hr t' he => hc (errOut_code h r hr 1 t' he).symm

theorem DataOut.notRefusal {w : World} {c : CmdId} {t : Bytes} {out : List Bytes} (h : DataOut w c.name t out)
    (hc : c ≠ .error) : NotRefusal out := fun r hr _ => kind_not_error hc (dataOut_kind h r hr)

theorem simple_notRefusal {c : CmdId} (hc : c ≠ .error) : NotRefusal [sendSimple c] := by
  intro r hr t; simp at hr; subst hr; exact kind_not_error hc (simple_kind c)

theorem number_notRefusal {c : CmdId} (hc : c ≠ .error) {n : Int} (h1 : longMin ≤ n) (h2 : n ≤ longMax) :
    NotRefusal [sendNumber c n] := by
  intro r hr t; simp at hr; subst hr; exact kind_not_error hc (number_kind h1 h2 c)

/-- Out of memory nothing may be sent; otherwise exactly one reply. -/
def OneOut (w : World) (out : List Bytes) : Prop := (∃ r, out = [r]) ∨ (out = [] ∧ ¬ Ample w)

theorem ErrOut.one {w : World} {c : Nat} {t : Bytes} {out : List Bytes} (h : ErrOut w c t out) : OneOut w out := by
  rcases h with ⟨r, h, -⟩ | h
  · exact Or.inl ⟨r, h⟩
  · exact Or.inr h

theorem DataOut.one {w : World} {c t : Bytes} {out : List Bytes} (h : DataOut w c t out) : OneOut w out := by
  rcases h with ⟨r, h, -⟩ | h
  · exact Or.inl ⟨r, h⟩
  · exact Or.inr h

theorem file_out {conf : LveConf} {w : World} {st st' : LveSt} {cmd : Command} {out : List Bytes}
    (hi : ErrInv st) (h : lveFile conf w st cmd = .ok (st', out)) :
    NotRefusal out ∧ OneOut w out ∧ (st.approved = false → ∀ r ∈ out, OfKind b!"ERROR" r) ∧
      (st.libpath = none → ∀ r ∈ out, OfKind b!"ERROR" r) ∧
      (∀ r ∈ out, OfKind b!"ERROR" r ∨ OfKind b!"FILECONT" r) := by
  rcases file_cases h with ⟨hap, rfl, h1⟩ | ⟨hap, -, h1⟩
  · obtain ⟨h2, c, hc1, hc2, hc3⟩ := hi
    rw [hc1] at h1
    rcases fileError_cases h1 with ⟨h3, -⟩ | ⟨t, -, h3⟩
    · rcases h2 with h2 | ⟨m, h2⟩
      · rw [hap] at h2; cases h2
      · rw [h3] at h2; cases h2
    · exact ⟨h3.notRefusal (by omega), h3.one, fun _ => errOut_kind h3, fun _ => errOut_kind h3,
        fun r hr => Or.inl (errOut_kind h3 r hr)⟩
  · refine ⟨?_, ?_, by simp [hap], ?_, ?_⟩
    · rcases h1 with ⟨rfl, -⟩ | ⟨t, h⟩ | ⟨t, h⟩ | ⟨-, -, d, h⟩
      · intro r hr; simp at hr
      · exact h.notRefusal (by decide)
      · exact h.notRefusal (by decide)
      · exact DataOut.notRefusal (c := .fileCont) h (by decide)
    · rcases h1 with h | ⟨t, h⟩ | ⟨t, h⟩ | ⟨-, -, d, h⟩
      · exact Or.inr h
      · exact h.one
      · exact h.one
      · exact h.one
    · intro hn
      rcases h1 with ⟨rfl, -⟩ | ⟨t, h⟩ | ⟨t, h⟩ | ⟨h, -⟩
      · simp
      · exact errOut_kind h
      · exact errOut_kind h
      · exact absurd hn h
    · rcases h1 with ⟨rfl, -⟩ | ⟨t, h⟩ | ⟨t, h⟩ | ⟨-, -, d, h⟩
      · simp
      · exact fun r hr => Or.inl (errOut_kind h r hr)
      · exact fun r hr => Or.inl (errOut_kind h r hr)
      · exact fun r hr => Or.inr (dataOut_kind h r hr)

theorem feature_out {conf : LveConf} {w : World} {st st' : LveSt} {cmd : Command} {out : List Bytes} {ok : Bool}
    (h : lveFeature conf w false st cmd = .ok (st', out, ok)) :
    NotRefusal out ∧ OneOut w out ∧ ∀ r ∈ out, OfKind b!"ERROR" r ∨ OfKind b!"YES" r ∨ OfKind b!"NO" r := by
  rcases feature_cases h with ⟨m, -, h, -⟩ | ⟨f, cs, -, -, -, ⟨-, rfl⟩ | ⟨m, -, h⟩⟩
  · exact ⟨h.notRefusal (by decide), h.one, fun r hr => Or.inl (errOut_kind h r hr)⟩
  · refine ⟨simple_notRefusal (by decide), Or.inl ⟨_, rfl⟩, ?_⟩
    intro r hr; simp at hr; subst hr; exact Or.inr (Or.inl (simple_kind .yes))
  · exact ⟨DataOut.notRefusal (c := .no) h (by decide), h.one,
      fun r hr => Or.inr (Or.inr (dataOut_kind h r hr))⟩

theorem returnFeature_out {conf : LveConf} {w : World} {st st' : LveSt} {cmd : Command} {out : List Bytes}
    (h : lveReturnFeature conf w st cmd = .ok (st', out)) :
    NotRefusal out ∧ OneOut w out ∧ ∀ r ∈ out, OfKind b!"ERROR" r ∨ OfKind b!"YES" r := by
  rcases returnFeature_cases h with ⟨m, -, h, -⟩ | ⟨f, cs, -, -, -, ⟨-, rfl⟩ | ⟨m, -, h⟩⟩
  · exact ⟨h.notRefusal (by decide), h.one, fun r hr => Or.inl (errOut_kind h r hr)⟩
  · refine ⟨simple_notRefusal (by decide), Or.inl ⟨_, rfl⟩, ?_⟩
    intro r hr; simp at hr; subst hr; exact Or.inr (simple_kind .yes)
  · exact ⟨h.notRefusal (by decide), h.one, fun r hr => Or.inl (errOut_kind h r hr)⟩

theorem lib_out {conf : LveConf} {w : World} {st st' : LveSt} {cmd : Command} {out : List Bytes} {ok : Bool}
    (h : lveLibpath conf w false st cmd = .ok (st', out, ok)) :
    NotRefusal out ∧ (OneOut w out ∨ (out = [] ∧ (cmd.data = none ∨ cmd.length = 0))) ∧
      ((cmd.data = none ∨ cmd.length = 0) → out = []) ∧
      ∀ r ∈ out, OfKind b!"ERROR" r ∨ OfKind b!"YES" r := by
  rcases lib_cases h with ⟨hn, rfl, -, -⟩ | ⟨buf, data, hd, hl, -, ⟨ha, rfl, -, -⟩ | ⟨st1, m, hg, h, -, -⟩ |
    ⟨st1, hg, rfl, -⟩⟩
  · refine ⟨fun r hr => by simp at hr, Or.inr ⟨rfl, hn⟩, fun _ => rfl, by simp⟩
  · exact ⟨fun r hr => by simp at hr, Or.inl (Or.inr ⟨rfl, ha⟩), fun _ => rfl, by simp⟩
  · exact ⟨h.notRefusal (by decide), Or.inl h.one, fun hh => by simp [hd, hl] at hh,
      fun r hr => Or.inl (errOut_kind h r hr)⟩
  · refine ⟨simple_notRefusal (by decide), Or.inl (Or.inl ⟨_, rfl⟩), fun hh => by simp [hd, hl] at hh, ?_⟩
    intro r hr; simp at hr; subst hr; exact Or.inr (simple_kind .yes)

/-! ### Data parts -/

theorem extract_data_none {m : Nat → Bool} {cmd cmd' : Command} {msg : Bytes} {k : Nat}
    (hm : ∀ n, m n = true) (h : extractData m cmd msg = .ok (cmd', k)) :
    cmd'.data = none ↔ ∃ line r, msg = line ++ 0 :: r ∧ ∀ b ∈ line, b ≠ 0 ∧ b ≠ 10 := by
  unfold extractData at h
  split at h
  · cases h
  · rename_i hf
    simp only [Res.ok.injEq, Prod.mk.injEq] at h
    obtain ⟨rfl, -⟩ := h
    simp only [true_iff]
    exact findNewline_some_none hf
  · rename_i i hf
    simp only [hm, if_true] at h
    rw [Res.bind_eq_ok] at h
    obtain ⟨c1, -, h⟩ := h
    rw [Res.bind_eq_ok] at h
    obtain ⟨c2, -, h⟩ := h
    simp only [Res.ok.injEq, Prod.mk.injEq] at h
    obtain ⟨rfl, -⟩ := h
    simp only [reduceCtorEq, false_iff]
    rintro ⟨line, r, rfl, hl⟩
    have : findNewline (line ++ 0 :: r) = some none := by
      clear hf
      induction line with
      | nil => simp [findNewline]
      | cons x xs ih =>
        have hx := hl x (by simp)
        simp [findNewline, hx.1, hx.2, ih (fun b hb => hl b (by simp [hb]))]
    rw [this] at hf; simp at hf

theorem extract_carries {m : Nat → Bool} {c : CmdId} {n : Int} {len : Nat} {cmd : Command} {msg data : Bytes}
    {k : Nat} {buf : Buf} (ha : Accepts msg c n len) (h : extractData m ⟨c, n, len, none⟩ msg = .ok (cmd, k))
    (hd : cmd.data = some buf) (hr : readCells buf.cells len = .ok data) : Carries msg c data := by
  have hlt := accepts_length_lt ha
  cases hf : findNewline msg with
  | none => simp [extractData, hf] at h
  | some o =>
    cases o with
    | none =>
      simp only [extractData, hf, Res.ok.injEq, Prod.mk.injEq] at h
      rw [← h.1] at hd; simp at hd
    | some i =>
      obtain ⟨line, part, rfl, hl, -⟩ := findNewline_some hf
      rw [extractData_line hl _ hlt] at h
      simp only at h
      split at h
      · split at h
        · rename_i hp
          simp only [Res.ok.injEq, Prod.mk.injEq] at h
          obtain ⟨rfl, -⟩ := h
          simp only [Option.some.injEq] at hd
          subst hd
          have hlen : data.length = len ∧ part.take len = data := by
            by_cases hpl : len ≤ part.length
            · have hc : (fillBuf len part).cells = (part.take len).map some ++ [some 0] := by
                unfold fillBuf
                simp only [List.append_cancel_right_eq]
                rw [List.take_append_of_le_length (by simpa using hpl), List.map_take]
              rw [hc] at hr
              have hl' : (part.take len).length = len := by simp; omega
              have := readCells_map_some (part.take len) [some 0]
              rw [hl'] at this
              rw [this] at hr
              simp only [Res.ok.injEq] at hr
              exact ⟨by rw [← hr]; exact hl', hr⟩
            · exfalso
              have hc : (fillBuf len part).cells =
                  part.map some ++ none :: (List.replicate (len - part.length - 1) none ++ [some 0]) := by
                unfold fillBuf
                have : len + 1 - part.length = (len - part.length - 1) + 1 + 1 := by omega
                rw [this, List.take_append, List.take_of_length_le (by simp; omega)]
                rw [List.take_replicate]
                simp only [List.length_map]
                have : min (len - part.length) (len - part.length - 1 + 1 + 1) = (len - part.length - 1) + 1 := by
                  omega
                rw [this, List.replicate_succ]
                simp
              rw [hc] at hr
              have : ∀ (p : Bytes) (t : List (Option UInt8)) (k : Nat), p.length < k →
                  ∀ d, readCells (p.map some ++ none :: t) k ≠ .ok d := by
                intro p
                induction p with
                | nil =>
                  intro t k hk d
                  cases k with
                  | zero => simp at hk
                  | succ k => simp [readCells]
                | cons x xs ih =>
                  intro t k hk d hh
                  cases k with
                  | zero => simp at hk
                  | succ k =>
                    simp only [List.map_cons, List.cons_append, readCells] at hh
                    rw [Res.bind_eq_ok] at hh
                    obtain ⟨d', h1, -⟩ := hh
                    exact ih t k (by simpa using hk) d' h1
              exact this part _ len (by omega) data hr
          refine ⟨line, part, n, hl, by simp, ?_, ?_, ?_⟩
          · rw [hlen.1]; exact ha
          · rw [hlen.1]; exact hlen.2
          · rw [hlen.1]; exact hp
        · cases h
      · simp only [Res.ok.injEq, Prod.mk.injEq] at h
        rw [← h.1] at hd; simp at hd

theorem split_line {l1 l2 p1 p2 : Bytes} (h1 : ∀ b ∈ l1, b ≠ 0 ∧ b ≠ 10) (h2 : ∀ b ∈ l2, b ≠ 0 ∧ b ≠ 10)
    (h : l1 ++ b!"\n" ++ p1 = l2 ++ b!"\n" ++ p2) : l1 = l2 ∧ p1 = p2 := by
  induction l1 generalizing l2 with
  | nil =>
    cases l2 with
    | nil => simpa using h
    | cons x xs =>
      simp at h
      exact absurd h.1.symm (h2 x (by simp)).2
  | cons c cs ih =>
    cases l2 with
    | nil => simp at h; exact absurd h.1 (h1 c (by simp)).2
    | cons d ds =>
      simp only [List.cons_append, List.cons.injEq] at h
      obtain ⟨a, b⟩ := ih (fun b hb => h1 b (by simp [hb])) (fun b hb => h2 b (by simp [hb])) h.2
      exact ⟨by rw [h.1, a], b⟩

theorem carries_unique {msg d1 d2 : Bytes} {c1 c2 : CmdId} (h1 : Carries msg c1 d1) (h2 : Carries msg c2 d2) :
    c1 = c2 ∧ d1 = d2 := by
  obtain ⟨l1, p1, n1, hl1, hm1, ha1, ht1, -⟩ := h1
  obtain ⟨l2, p2, n2, hl2, hm2, ha2, ht2, -⟩ := h2
  obtain ⟨h3, -, h4⟩ := accepts_unique ha1 ha2
  refine ⟨h3, ?_⟩
  rw [hm1] at hm2
  obtain ⟨-, rfl⟩ := split_line hl1 hl2 hm2
  rw [← ht1, ← ht2, h4]

theorem fillBuf_take {part data : Bytes} (h1 : part.take data.length = data) :
    (fillBuf data.length part).cells = data.map some ++ [some 0] := by
  have hpl : data.length ≤ part.length := by
    have := congrArg List.length h1; simp at this; exact this
  unfold fillBuf
  simp only [List.append_cancel_right_eq]
  rw [List.take_append_of_le_length (by simpa using hpl), ← List.map_take, h1]

/-- Extraction on a message that carries its data. -/
theorem carries_extract {m : Nat → Bool} {c : CmdId} {msg data : Bytes} (h : Carries msg c data)
    (hm : m (data.length + 1) = true) :
    ∃ n k, Accepts msg c n data.length ∧ extractData m ⟨c, n, data.length, none⟩ msg =
      .ok (⟨c, n, data.length, some ⟨data.map some ++ [some 0]⟩⟩, k) := by
  obtain ⟨line, part, n, hl, rfl, ha, ht, hp⟩ := h
  refine ⟨n, part.length, ha, ?_⟩
  have : line ++ b!"\n" ++ part = line ++ 10 :: part := by simp
  rw [this, extractData_line hl _ (accepts_length_lt ha)]
  simp only [hm, hp, if_true, Res.ok.injEq, Prod.mk.injEq, Command.mk.injEq, true_and, and_true,
    Option.some.injEq]
  rw [← fillBuf_take ht]

end Semla
