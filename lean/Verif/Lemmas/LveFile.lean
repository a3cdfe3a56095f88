import Verif.Lemmas.LveInv
import Verif.Lemmas.CrLib
import Verif.Lemmas.CrSafe

/-! # Helper lemmas: FILE requests evaluated forwards -/

set_option linter.unusedSimpArgs false

namespace Semla

open Semla.Spec

/-- A message that carries data for an allowed command reaches the handler with exactly this data. -/
theorem step_forward {conf : LveConf} {w : World} (hw : Ample w) {st : LveSt} {c : CmdId} {msg data : Bytes}
    {next : LveState} (hform : c.form = .length) (hcar : Carries msg c data)
    (hn : validNext c st.proto = some next) :
    lveStep conf w st msg =
      dispatch conf w st next ⟨c, 0, data.length, some ⟨data.map some ++ [some 0]⟩⟩ := by
  obtain ⟨n, k, ha, hx⟩ := carries_extract hcar (hw _) (m := w.malloc)
  have hn0 := accepts_number ha hform
  subst hn0
  have hdef := accepts_defined ha
  unfold lveStep
  rw [if_neg (by simp [hw _]), parse_of_accepts ha]
  simp only [Res.bind_ok, if_true]
  change handleCommand conf w st ⟨c, 0, data.length, none⟩ msg = _
  unfold handleCommand
  rw [nextState_some hdef hn]
  simp only [Res.bind_ok, hform, if_true, hx]

theorem snprintf_fits {cap : Nat} {s : Bytes} (h : s.length < cap) : snprintf cap s = s := by
  unfold snprintf
  exact List.take_of_length_le (by omega)

theorem cstr_length_le (b : Bytes) : (cstr b).length ≤ b.length := by
  unfold cstr; exact (List.takeWhile_prefix _).length_le

/-- The size recorded with the root is its length. -/
def PathInv (st : LveSt) : Prop := ∀ p, st.libpath = some p → st.pathSize = p.length

theorem pathInv_lib {conf : LveConf} {w : World} {st st' : LveSt} {cmd : Command} {out : List Bytes} {ok : Bool}
    (h : lveLibpath conf w false st cmd = .ok (st', out, ok)) (hi : PathInv st) : PathInv st' := by
  have hgl : ∀ {s s' : LveSt} {a}, globalLicense conf s = (s', a) → PathInv s → PathInv s' := by
    intro s s' a hg hi
    rcases global_cases hg with ⟨-, rfl, -⟩ | ⟨m, -, -, -, -, -, rfl⟩ | ⟨g, cs, -, -, -, rfl, -⟩ <;> exact hi
  have hroot : ∀ p, PathInv (withRoot st p) := by
    intro p q hq; simp only [withRoot, Option.some.injEq] at hq ⊢; rw [hq]
  rcases lib_cases h with ⟨-, -, -, rfl⟩ | ⟨buf, data, -, -, -, ⟨-, -, -, rfl⟩ | ⟨st1, m, hg, -, -, rfl⟩ |
    ⟨st1, hg, -, hv⟩⟩
  · exact hi
  · intro q hq; simp only [Option.some.injEq] at hq ⊢; rw [hq]
  · have hr := hgl hg (hroot _)
    exact hr
  · have := hgl hg (hroot _)
    rcases validateDirectory_cases hv with ⟨-, rfl, -⟩ | ⟨m, -, -, rfl⟩ <;> exact this

theorem pathInv_step {conf : LveConf} {w : World} {st st' : LveSt} {msg : Bytes} {out : List Bytes}
    (hi : PathInv st) (h : Effect conf w st msg st' out) : PathInv st' := by
  cases h with
  | refused => exact hi
  | low => exact hi
  | version => exact hi
  | tools => exact hi
  | lib _ _ _ h => exact (pathInv_lib h hi : PathInv _)
  | feature _ _ _ h => obtain ⟨b, cs, rfl⟩ := feature_frame h; exact hi
  | returnFeature _ _ _ h => obtain ⟨b, cs, rfl⟩ := returnFeature_frame h; exact hi
  | license => exact hi
  | file _ _ _ h => obtain ⟨t, rfl⟩ := file_frame h; exact hi

theorem pathInv_session {conf : LveConf} {k : Option Bytes} {turns : List (World × Bytes)} {st : LveSt}
    {outs : List (List Bytes)} (h : Session conf k turns st outs) : PathInv st := by
  obtain ⟨st0, h1, h2⟩ := h
  refine run_inv (fun _ _ _ _ _ hi he => pathInv_step hi he) ?_ h2
  rcases start_eq h1 with rfl | rfl <;> intro p hp <;> simp [LveSt.initial] at hp

/-! ### The extension -/

theorem toLower_eq_iff {c : UInt8} {l : UInt8} (hl : l = 109 ∨ l = 111 ∨ l = 99) :
    toLower c = l ↔ c = l ∨ c = l - 32 := by
  have key : ∀ i : Fin 256, ∀ l ∈ [(109 : UInt8), 111, 99],
      (toLower (UInt8.ofFin i) = l ↔ UInt8.ofFin i = l ∨ UInt8.ofFin i = l - 32) := by decide +kernel
  exact key c.toFin l (by simpa using hl)

theorem moc_iff (e : Bytes) : eqNoCase e b!"moc" = true ↔ e.length = 3 ∧
    (e[0]? = some 109 ∨ e[0]? = some 77) ∧ (e[1]? = some 111 ∨ e[1]? = some 79) ∧
    (e[2]? = some 99 ∨ e[2]? = some 67) := by
  have hm : (b!"moc").map toLower = [109, 111, 99] := by decide
  unfold eqNoCase
  rw [hm, beq_iff_eq]
  rcases e with _ | ⟨a, _ | ⟨b, _ | ⟨c, _ | ⟨d, e⟩⟩⟩⟩ <;> simp
  rw [toLower_eq_iff (Or.inl rfl), toLower_eq_iff (Or.inr (Or.inl rfl)), toLower_eq_iff (Or.inr (Or.inr rfl))]
  simp

theorem extension_eq {base e : Bytes} (h : 46 ∉ e) : extension (base ++ b!"." ++ e) = some e := by
  unfold extension
  rw [if_pos (by simp)]
  congr 1
  have h1 : (base ++ b!"." ++ e).reverse = e.reverse ++ 46 :: base.reverse := by simp
  rw [h1, List.takeWhile_append_of_pos, List.takeWhile_cons_of_neg (by simp)]
  · simp
  · intro a ha; simp at ha; simp; rintro rfl; exact h ha

theorem extension_some {s e : Bytes} (h : extension s = some e) : ∃ base, s = base ++ b!"." ++ e := by
  unfold extension at h
  split at h
  · rename_i hm
    simp only [Option.some.injEq] at h
    have h1 : s.reverse = s.reverse.takeWhile (· ≠ 46) ++ s.reverse.dropWhile (· ≠ 46) :=
      (List.takeWhile_append_dropWhile).symm
    have h2 : s.reverse.dropWhile (· ≠ 46) ≠ [] := by
      intro h3
      rw [List.dropWhile_eq_nil_iff] at h3
      have := h3 46 (by simpa using hm)
      simp at this
    obtain ⟨x, xs, h3⟩ := List.exists_cons_of_ne_nil h2
    have hx : x = 46 := by
      have := List.head_dropWhile_not (fun b : UInt8 => decide (b ≠ 46)) h2
      simp only [h3, List.head_cons] at this
      simpa using this
    subst hx
    refine ⟨xs.reverse, ?_⟩
    rw [← h]
    have h4 := congrArg List.reverse h1
    rw [List.reverse_reverse, h3] at h4
    exact h4.trans (by simp only [List.reverse_append, List.reverse_cons])
  · cases h

theorem isEncryptedName_iff (s : Bytes) : isEncryptedName s = true ↔ IsMoc s := by
  unfold isEncryptedName
  constructor
  · intro h
    split at h
    · rename_i e he
      obtain ⟨base, hb⟩ := extension_some he
      exact ⟨base, e, hb, (moc_iff e).1 h⟩
    · cases h
  · rintro ⟨base, e, rfl, he⟩
    have hn : 46 ∉ e := by
      obtain ⟨h1, h2, h3, h4⟩ := he
      rcases e with _ | ⟨a, _ | ⟨b, _ | ⟨c, _ | ⟨d, e⟩⟩⟩⟩ <;> simp at h1 h2 h3 h4 ⊢
      rcases h2 with rfl | rfl <;> rcases h3 with rfl | rfl <;> rcases h4 with rfl | rfl <;> decide
    rw [extension_eq hn]
    exact (moc_iff e).2 he

/-! ### FILE -/

theorem file_unapproved {conf : LveConf} {w : World} {st : LveSt} {cmd : Command} (ha : st.approved = false)
    {m : Bytes} (hm : st.toolErrMsg = some m) :
    lveFile conf w st cmd = (do
      let out ← reply false (sendError w.malloc st.toolErrType (some m))
      .ok (st, out)) := by
  simp [lveFile, ha, fileError, hm]

/-- FILE up to the point where the file has been read. -/
theorem file_forward {conf : LveConf} {w : World} (hw : Ample w) {st : LveSt} {root p : Bytes} {n : Int}
    (ha : st.approved = true) (hl : st.libpath = some root) (hs : st.pathSize = root.length)
    (hsz : root.length + p.length + 2 < 2 ^ 64) :
    lveFile conf w st ⟨.file, n, p.length, some ⟨p.map some ++ [some 0]⟩⟩ =
      (match readFile w (cstr root ++ b!"/" ++ cstr p) with
      | .failed e => do
        let msg ← errorMessage e
        let out ← fileError w errFileIo msg
        .ok (st, out)
      | .contents content =>
        if isEncryptedName (cstr p) then do
          let (st, n, out) ← lveDecrypt conf w st (cstr p) content
          if n < 0 then do
            let out ← fileError w errOther
              (some (b!"Failed to decrypt file " ++ (cstr root ++ b!"/" ++ cstr p) ++ b!", might be corrupted."))
            .ok (st, out)
          else do
            let r ← reply false (sendLength w.malloc .fileCont (out.take n.toNat))
            .ok (st, r)
        else do
          let r ← reply false (sendLength w.malloc .fileCont content)
          .ok (st, r)) := by
  have hsz2 : (st.pathSize + p.length + 2) % sizeMod = root.length + p.length + 2 := by
    rw [hs, Nat.mod_eq_of_lt]
    unfold sizeMod; omega
  have hlen : (cstr root ++ b!"/" ++ cstr p).length < root.length + p.length + 2 := by
    have := cstr_length_le root
    have := cstr_length_le p
    simp; omega
  unfold lveFile
  simp only [ha, not_true_eq_false, if_false, hw _, hl]
  rw [readCStr_map_some]
  simp only [Res.bind_ok, hsz2]
  rw [if_neg (by omega), snprintf_fits hlen]
  rfl

end Semla
