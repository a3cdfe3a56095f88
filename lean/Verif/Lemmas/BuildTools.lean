import Verif.Model.BuildTools
import Verif.Spec.Header
import Verif.Lemmas.Dec
import Verif.Lemmas.Start

/-!
# Lemmas about the build tools
-/

set_option linter.unusedSimpArgs false

namespace Semla

open Semla.Spec Semla.Props

theorem skip_append (p t : Bytes) : skip p (p ++ t) = some t := by
  induction p with
  | nil => simp [skip]
  | cons c cs ih => simp [skip, ih]

theorem readDigits_append {base : Nat} {digit : UInt8 → Option Nat} (val : UInt8 → Nat) (ds : Bytes)
    (h : ∀ c ∈ ds, digit c = some (val c)) (e : UInt8) (he : digit e = none) (t : Bytes) (v : Nat) :
    readDigits base digit v (ds ++ e :: t) = (ds.foldl (fun a c => a * base + val c) v, e :: t) := by
  induction ds generalizing v with
  | nil => simp [readDigits, he]
  | cons c cs ih =>
    simp only [List.cons_append, readDigits, h c (by simp), List.foldl_cons]
    exact ih (fun c hc => h c (by simp [hc])) _

theorem readNumber_decNat (n : Nat) (e : UInt8) (he : decDigit e = none) (t : Bytes) :
    readNumber (decNat n ++ e :: t) = some (n, e :: t) := by
  obtain ⟨h1, h2, h3, -⟩ := decNat_numeral n
  have hd : ∀ c ∈ decNat n, decDigit c = some (c.toNat - 48) := by
    intro c hc
    simp [decDigit, h2 c hc]
  unfold readNumber
  have hh : ((decNat n ++ e :: t).head?.bind decDigit).isSome = true := by
    cases hx : decNat n with
    | nil => exact absurd hx h1
    | cons c cs =>
      have := hd c (by rw [hx]; simp)
      simp [this]
  rw [if_pos hh, readDigits_append (fun c => c.toNat - 48) _ hd e he, h3]

theorem hexByte_digits (b : UInt8) : (∀ c ∈ hexByte b, hexDigitOf c = some ((hexDigitOf c).getD 0)) ∧
    (hexByte b).foldl (fun a c => a * 16 + (hexDigitOf c).getD 0) 0 = b.toNat := by
  have : ∀ n : Fin 256, (∀ c ∈ hexByte (UInt8.ofNat n.val), hexDigitOf c = some ((hexDigitOf c).getD 0)) ∧
    (hexByte (UInt8.ofNat n.val)).foldl (fun a c => a * 16 + (hexDigitOf c).getD 0) 0 = (UInt8.ofNat n.val).toNat := by
    decide +kernel
  have h := this ⟨b.toNat, b.toNat_lt⟩
  simpa using h

theorem readEscape_hexByte (b : UInt8) (t : Bytes) :
    readEscape (120 :: (hexByte b ++ 39 :: t)) = some (b, 39 :: t) := by
  obtain ⟨h1, h2⟩ := hexByte_digits b
  simp only [readEscape]
  rw [readDigits_append (fun c => (hexDigitOf c).getD 0) _ h1 39 (by decide)]
  simp [h2, b.toNat_lt]

theorem readAssign_hex (name : Bytes) (i : Nat) (b : UInt8) (t : Bytes) :
    readAssign name (name ++ b!"[" ++ decNat i ++ b!"] = '\\x" ++ hexByte b ++ b!"'; " ++ t) = some ((i, b), t) := by
  have h1 : name ++ b!"[" ++ decNat i ++ b!"] = '\\x" ++ hexByte b ++ b!"'; " ++ t =
      (name ++ b!"[") ++ (decNat i ++ 93 :: (b!" = '\\x" ++ hexByte b ++ b!"'; " ++ t)) := by simp
  have h2 : (93 :: (b!" = '\\x" ++ hexByte b ++ b!"'; " ++ t) : Bytes) =
      b!"] = '\\" ++ (120 :: (hexByte b ++ 39 :: (b!"; " ++ t))) := by simp
  have h3 : (39 :: (b!"; " ++ t) : Bytes) = b!"'; " ++ t := by simp
  unfold readAssign
  rw [h1, skip_append]
  simp only [Option.bind_eq_bind, Option.bind_some]
  rw [readNumber_decNat _ _ (by decide)]
  simp only [Option.bind_some]
  rw [h2, skip_append]
  simp only [Option.bind_some]
  rw [readEscape_hexByte]
  simp only [Option.bind_some]
  rw [h3, skip_append]
  rfl

theorem readAssign_zero (name : Bytes) (i : Nat) (t : Bytes) :
    readAssign name (name ++ b!"[" ++ decNat i ++ b!"] = '\\0'; " ++ t) = some ((i, 0), t) := by
  have h1 : name ++ b!"[" ++ decNat i ++ b!"] = '\\0'; " ++ t =
      (name ++ b!"[") ++ (decNat i ++ 93 :: (b!" = '\\0'; " ++ t)) := by simp
  have h2 : (93 :: (b!" = '\\0'; " ++ t) : Bytes) = b!"] = '\\" ++ (48 :: 39 :: (b!"; " ++ t)) := by simp
  have h3 : (39 :: (b!"; " ++ t) : Bytes) = b!"'; " ++ t := by simp
  unfold readAssign
  rw [h1, skip_append]
  simp only [Option.bind_eq_bind, Option.bind_some]
  rw [readNumber_decNat _ _ (by decide)]
  simp only [Option.bind_some]
  rw [h2, skip_append]
  simp only [Option.bind_some, readEscape]
  rw [h3, skip_append]
  rfl

theorem skip_end_name {name : Bytes} (hn : IsIdentifier name) (t : Bytes) :
    skip b!"} while (0)\n" (name ++ t) = none := by
  obtain ⟨h1, h2⟩ := hn
  cases name with
  | nil => exact absurd rfl h1
  | cons c cs =>
    have : c ≠ 125 := by
      rintro rfl
      have := h2 125 (by simp)
      revert this
      decide
    simp only [List.cons_append, skip]
    rw [if_neg (fun h => this h.symm)]

/-- The assignments of the macro. -/
def initAssigns : Nat → Bytes → List (Nat × UInt8)
  | _, [] => []
  | i, b :: bs => (i, b) :: initAssigns (i + 1) bs

theorem readAssigns_init {name : Bytes} (hn : IsIdentifier name) (len : Nat) (t : Bytes) :
    ∀ (d : Bytes) (i fuel : Nat), d.length + 2 ≤ fuel →
      readAssigns name fuel (initText name i d ++ (name ++ b!"[" ++ decNat len ++ b!"] = '\\0'; } while (0)\n" ++ t)) =
        some (initAssigns i d ++ [(len, 0)], t) := by
  intro d
  induction d with
  | nil =>
    intro i fuel hf
    obtain ⟨f, rfl⟩ : ∃ f, fuel = f + 2 := ⟨fuel - 2, by simp at hf; omega⟩
    have h1 : initText name i [] ++ (name ++ b!"[" ++ decNat len ++ b!"] = '\\0'; } while (0)\n" ++ t) =
        name ++ b!"[" ++ decNat len ++ b!"] = '\\0'; " ++ (b!"} while (0)\n" ++ t) := by simp [initText]
    rw [h1, readAssigns]
    have h2 := skip_end_name hn (b!"[" ++ decNat len ++ b!"] = '\\0'; " ++ (b!"} while (0)\n" ++ t))
    simp only [List.append_assoc] at h2 ⊢
    rw [h2]
    have h3 := readAssign_zero name len (b!"} while (0)\n" ++ t)
    simp only [List.append_assoc] at h3
    simp only [Option.bind_eq_bind, h3, Option.bind_some]
    rw [readAssigns, skip_append]
    simp [initAssigns]
  | cons b bs ih =>
    intro i fuel hf
    obtain ⟨f, rfl⟩ : ∃ f, fuel = f + 1 := ⟨fuel - 1, by simp at hf; omega⟩
    have ih := ih (i + 1) f (by simp at hf; omega)
    generalize name ++ b!"[" ++ decNat len ++ b!"] = '\\0'; } while (0)\n" ++ t = e at ih ⊢
    have h2 := skip_end_name hn (b!"[" ++ decNat i ++ b!"] = '\\x" ++ hexByte b ++ b!"'; " ++ (initText name (i + 1) bs ++ e))
    have h3 := readAssign_hex name i b (initText name (i + 1) bs ++ e)
    rw [readAssigns]
    simp only [initText, List.append_assoc] at h2 h3 ih ⊢
    rw [h2]
    simp only [Option.bind_eq_bind, h3, Option.bind_some, ih, initAssigns]
    rfl

theorem initText_length (name : Bytes) : ∀ (d : Bytes) (i : Nat), d.length ≤ (initText name i d).length := by
  intro d
  induction d with
  | nil => simp
  | cons b bs ih =>
    intro i
    have := ih (i + 1)
    simp only [initText, List.length_append, List.length_cons]
    omega

/-- The data behind `create_header_file`'s loop. -/
def strippedData (data : Bytes) : Bytes :=
  unixText data ++ (if (unixText data).length < data.length then
    0 :: data.drop ((unixText data).length + 1) else [])

theorem strippedData_length (data : Bytes) : (strippedData data).length = data.length := by
  have hle : (unixText data).length ≤ data.length := List.length_filter_le _ _
  unfold strippedData
  split
  · simp only [List.length_append, List.length_cons, List.length_drop]; omega
  · simp only [List.length_append, List.length_nil]; omega

theorem headerText_eq (name data : Bytes) : headerText name data =
    b!"#define DECLARE_" ++ name ++ b!"() unsigned char " ++ name ++ b!"[" ++ decNat (data.length + 1) ++ b!"]\n" ++
    b!"#define " ++ name ++ b!"_LEN (" ++ decNat (unixText data).length ++ b!")\n" ++
    b!"#define INITIALIZE_" ++ name ++ b!"() do { " ++ initText name 0 (strippedData data) ++
    name ++ b!"[" ++ decNat data.length ++ b!"] = '\\0'; } while (0)\n" ++
    b!"#define CLEAR_" ++ name ++ b!"() memset(" ++ name ++ b!", 0, " ++ name ++ b!"_LEN)\n" := by
  obtain ⟨d', h1, h2, h3⟩ := stripLoop_spec data.length 0 0 data (by omega) (by omega)
  have hle : (data.filter (· ≠ 13)).length ≤ data.length := List.length_filter_le _ _
  simp only [List.take_zero, List.nil_append, List.drop_zero, Nat.zero_add] at h1 h3
  have h4 : (if (data.filter (· ≠ 13)).length < data.length then d'.set (data.filter (· ≠ 13)).length 0 else d') =
      strippedData data := by
    unfold strippedData unixText
    split
    · rename_i hlt
      rw [h3, List.set_append_right _ _ (Nat.le_refl _), Nat.sub_self,
        List.drop_eq_getElem_cons hlt, List.set_cons_zero]
    · rename_i hlt
      have : data.drop (data.filter (· ≠ 13)).length = [] := List.drop_eq_nil_iff.2 (by omega)
      rw [h3, this]
  unfold headerText
  simp only [h1, h4]
  rfl

theorem readHeader_headerText {name : Bytes} (hn : IsIdentifier name) (data : Bytes) :
    readHeader name (headerText name data) =
      some ⟨data.length + 1, (unixText data).length, initAssigns 0 (strippedData data) ++ [(data.length, 0)]⟩ := by
  rw [headerText_eq]
  have e1 : ∀ t : Bytes, b!"]\n" ++ t = 93 :: (b!"\n" ++ t) := by intro t; simp
  have e2 : ∀ t : Bytes, b!")\n" ++ t = 41 :: (b!"\n" ++ t) := by intro t; simp
  have hs1 := skip_append (b!"#define DECLARE_" ++ name ++ b!"() unsigned char " ++ name ++ b!"[")
  have hs2 := skip_append (b!"#define " ++ name ++ b!"_LEN (")
  have hs3 := skip_append (b!"#define INITIALIZE_" ++ name ++ b!"() do { ")
  have hs4 := skip_append (b!"#define CLEAR_" ++ name ++ b!"() memset(" ++ name ++ b!", 0, " ++ name ++ b!"_LEN)\n") []
  have hs5 := skip_append b!"]\n"
  have hs6 := skip_append b!")\n"
  have hd : ∀ n t, readNumber (decNat n ++ (b!"]\n" ++ t)) = some (n, b!"]\n" ++ t) := by
    intro n t; rw [e1]; exact readNumber_decNat _ _ (by decide) _
  have hd2 : ∀ n t, readNumber (decNat n ++ (b!")\n" ++ t)) = some (n, b!")\n" ++ t) := by
    intro n t; rw [e2]; exact readNumber_decNat _ _ (by decide) _
  have ha := fun t fuel h => readAssigns_init hn data.length t (strippedData data) 0 fuel h
  have hl := initText_length name (strippedData data) 0
  simp only [List.append_assoc, List.append_nil] at hs1 hs2 hs3 hs4 ha ⊢
  unfold readHeader
  simp only [List.append_assoc, Option.bind_eq_bind]
  rw [hs1]
  simp only [Option.bind_some]
  rw [hd]
  simp only [Option.bind_some]
  rw [hs5]
  simp only [Option.bind_some]
  rw [hs2]
  simp only [Option.bind_some]
  rw [hd2]
  simp only [Option.bind_some]
  rw [hs6]
  simp only [Option.bind_some]
  rw [hs3]
  simp only [Option.bind_some]
  rw [ha _ _ (by simp only [List.length_append, List.length_cons]; omega)]
  simp only [Option.bind_some]
  rw [hs4]
  simp

theorem initAssigns_set : ∀ (d : Bytes) (done rest : List (Option UInt8)), d.length ≤ rest.length →
    (initAssigns done.length d).foldl (fun cells a => cells.set a.1 (some a.2)) (done ++ rest) =
      done ++ d.map some ++ rest.drop d.length := by
  intro d
  induction d with
  | nil => intro done rest _; simp [initAssigns]
  | cons b bs ih =>
    intro done rest h
    cases rest with
    | nil => simp at h
    | cons r rs =>
      have h2 := ih (done ++ [some b]) rs (by simpa using h)
      simp only [List.length_append, List.length_cons, List.length_nil, Nat.zero_add] at h2
      simp only [initAssigns, List.foldl_cons]
      rw [List.set_append_right _ _ (Nat.le_refl _), Nat.sub_self, List.set_cons_zero]
      have : done ++ some b :: rs = done ++ [some b] ++ rs := by simp
      rw [this, h2]
      simp

theorem initAssigns_lt : ∀ (d : Bytes) (i : Nat), ∀ a ∈ initAssigns i d, a.1 < i + d.length := by
  intro d
  induction d with
  | nil => simp [initAssigns]
  | cons b bs ih =>
    intro i a ha
    rcases List.mem_cons.mp ha with rfl | ha
    · simp
    · have := ih (i + 1) a ha
      simp only [List.length_cons]
      omega

theorem macros_array (data : Bytes) : (Macros.mk (data.length + 1) (unixText data).length
    (initAssigns 0 (strippedData data) ++ [(data.length, 0)])).array = (strippedData data).map some ++ [some 0] := by
  have h := initAssigns_set (strippedData data) [] (List.replicate (data.length + 1) none)
    (by simp [strippedData_length])
  simp only [List.nil_append, List.length_nil] at h
  unfold Macros.array
  simp only [List.foldl_append, h, List.foldl_cons, List.foldl_nil]
  simp only [strippedData_length, List.drop_replicate]
  rw [List.set_append_right _ _ (by simp [strippedData_length])]
  simp [strippedData_length]

theorem macros_take (data : Bytes) : ((strippedData data).map some ++ [some 0]).take ((unixText data).length + 1) =
    (unixText data ++ [0]).map some := by
  unfold strippedData
  split
  · simp only [List.map_append, List.map_cons, List.append_assoc, List.map_nil, List.cons_append]
    rw [List.take_append]
    simp [List.take_of_length_le]
  · simp only [List.append_nil, List.map_append, List.map_cons, List.map_nil]
    rw [List.take_of_length_le (by simp)]

theorem provides_headerText {name : Bytes} (hn : IsIdentifier name) (data : Bytes) :
    Provides name (headerText name data) (unixText data) := by
  have hle : (unixText data).length ≤ data.length := List.length_filter_le _ _
  refine ⟨_, readHeader_headerText hn data, ?_, rfl, by simp only; omega, ?_⟩
  · intro a ha
    rcases List.mem_append.mp ha with ha | ha
    · have := initAssigns_lt _ _ a ha
      rw [strippedData_length] at this
      simp only
      omega
    · simp only [List.mem_singleton] at ha
      subst ha
      simp
  · rw [macros_array, macros_take]

theorem obfuscate_ok {env : BuildEnv} {args : List Bytes} {text : Bytes} (hk : env.kept = none)
    (h : obfuscateMain env args = .ok ⟨0, some text⟩) : ∃ out file name type n c, args = [out, file, name, type] ∧
      env.stat file = some n ∧ env.content file = some c ∧ n ≤ c.length ∧ text = headerText name (c.take n) := by
  unfold obfuscateMain at h
  split at h
  · rename_i out file name type
    split at h
    · unfold readKeyFile at h
      cases hs : env.stat file with
      | none => simp [hs, Res.bind] at h
      | some n =>
        simp only [hs] at h
        split at h
        · simp [Res.bind_ok] at h
        · cases hc : env.content file with
          | none => simp [hc, Res.bind_ok] at h
          | some c =>
            simp only [hc, Res.bind_ok] at h
            split at h
            · rename_i h9
              simp at h
            · rename_i h9 data h10
              split at h10
              · cases h10
              · rename_i hn
                cases h10
                simp only [createHeaderFile, hk] at h
                split at h
                · simp at h
                · simp only [Res.ok.injEq, BuildResult.mk.injEq, Option.some.injEq, true_and] at h
                  exact ⟨out, file, name, type, n, c, rfl, hs, hc, by omega, h.symm⟩
    · simp at h
  · simp at h

end Semla
