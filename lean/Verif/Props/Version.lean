import Verif.Model.Version
import Verif.Spec.Json

/-!
# C85: what the vendor executable says about itself
-/

namespace Semla.Props

open Semla Semla.Spec

/-- The text from behind, without blanks. -/
def solidEnd (b : Bytes) : Bytes := b.reverse.dropWhile fun c => c = 32 || c = 9 || c = 10 || c = 13

theorem solidEnd_blank {w : Bytes} (h : Blanks w) (b : Bytes) : solidEnd (b ++ w) = solidEnd b := by
  unfold solidEnd
  rw [List.reverse_append, List.dropWhile_append_of_pos]
  intro c hc
  rcases h c (List.mem_reverse.1 hc) with h | h | h | h <;> simp [h]

theorem solidEnd_last {c : UInt8} (b : Bytes) (h : ¬ (c = 32 ∨ c = 9 ∨ c = 10 ∨ c = 13)) :
    solidEnd (b ++ [c]) = c :: b.reverse := by
  unfold solidEnd
  rw [List.reverse_append]
  simp only [not_or] at h
  simp [h.1, h.2.1, h.2.2.1, h.2.2.2]

theorem digits_last {w : Bytes} (h : Digits w) : ∃ b c, w = b ++ [c] ∧ Digit c :=
  ⟨w.dropLast, w.getLast h.1, (List.dropLast_concat_getLast h.1).symm, h.2 _ (List.getLast_mem h.1)⟩

theorem number_last {w : Bytes} (h : JsonNumber w) : ∃ b c, w = b ++ [c] ∧ Digit c := by
  obtain ⟨sign, int, frac, exp, rfl, -, hi, hf, he⟩ := h
  rcases he with rfl | ⟨e, s, ds, rfl, -, -, hd⟩
  · rcases hf with rfl | ⟨ds, rfl, hd⟩
    · rcases hi with rfl | ⟨hi, -⟩
      · exact ⟨sign, 48, by simp, by unfold Digit; decide⟩
      · obtain ⟨b, c, rfl, hc⟩ := digits_last hi
        exact ⟨sign ++ b, c, by simp, hc⟩
    · obtain ⟨b, c, rfl, hc⟩ := digits_last hd
      exact ⟨sign ++ int ++ 46 :: b, c, by simp, hc⟩
  · obtain ⟨b, c, rfl, hc⟩ := digits_last hd
    exact ⟨sign ++ int ++ frac ++ e :: s ++ b, c, by simp, hc⟩

/-- The last character of a value. -/
theorem value_last {v : Bytes} (h : Json .value v) : ∃ b c, v = b ++ [c] ∧
    (c = 101 ∨ c = 108 ∨ Digit c ∨ c = 34 ∨ c = 93 ∨ c = 125) := by
  cases h with
  | literal h =>
    rcases h with rfl | rfl | rfl
    · exact ⟨b!"tru", 101, rfl, by simp⟩
    · exact ⟨b!"fals", 101, rfl, by simp⟩
    · exact ⟨b!"nul", 108, rfl, by simp⟩
  | number h =>
    obtain ⟨b, c, rfl, hc⟩ := number_last h
    exact ⟨b, c, rfl, by simp [hc]⟩
  | string => exact ⟨_, 34, rfl, by simp⟩
  | emptyArray => exact ⟨_, 93, rfl, by simp⟩
  | array => exact ⟨_, 93, rfl, by simp⟩
  | emptyObject => exact ⟨_, 125, rfl, by simp⟩
  | object => exact ⟨_, 125, rfl, by simp⟩

theorem last_solid {c : UInt8} (h : c = 101 ∨ c = 108 ∨ Digit c ∨ c = 34 ∨ c = 93 ∨ c = 125) :
    ¬ (c = 32 ∨ c = 9 ∨ c = 10 ∨ c = 13) ∧ c ≠ 44 := by
  rcases h with rfl | rfl | h | rfl | rfl | rfl <;> try decide
  unfold Digit at h
  constructor
  · rintro (rfl | rfl | rfl | rfl) <;> exact absurd h.1 (by decide)
  · rintro rfl
    exact absurd h.1 (by decide)

theorem value_solid {v w : Bytes} (h : Json .value v) (hw : Blanks w) (a : Bytes) :
    ∃ c, solidEnd (a ++ v ++ w) = v.reverse ++ a.reverse ∧ v.reverse.head? = some c ∧ c ≠ 44 := by
  obtain ⟨b, c, rfl, hc⟩ := value_last h
  refine ⟨c, ?_, by simp, (last_solid hc).2⟩
  rw [solidEnd_blank hw, ← List.append_assoc, solidEnd_last _ (last_solid hc).1]
  simp

/-- What is between braces does not end with a comma. -/
theorem members_solid {ms : Bytes} (h : Json .members ms) (a : Bytes) : ∃ c r, solidEnd (a ++ ms) = c :: r ∧ c ≠ 44 := by
  have key : ∀ (x v w : Bytes), Json .value v → Blanks w → ∃ c r, solidEnd (a ++ (x ++ v ++ w)) = c :: r ∧ c ≠ 44 := by
    intro x v w hv hw
    obtain ⟨c, h1, h2, h3⟩ := value_solid hv hw (a ++ x)
    rw [show a ++ (x ++ v ++ w) = a ++ x ++ v ++ w by simp, h1]
    cases hr : v.reverse with
    | nil => rw [hr] at h2; cases h2
    | cons c' r =>
      rw [hr] at h2
      injection h2 with h2
      exact ⟨c', _, rfl, by rw [h2]; exact h3⟩
  cases h with
  | member _ _ _ _ hv hw => exact key _ _ _ hv hw
  | moreMembers _ _ _ _ _ hv hw => exact key _ _ _ hv hw

/-- No JSON text ends with a comma, blanks and a brace. -/
theorem not_json_comma (b w w' : Bytes) (hw : Blanks w) (hw' : Blanks w') : ¬ IsJson (b ++ [44] ++ w ++ [125] ++ w') := by
  rintro ⟨u, v, u', hu, hv, hu', he⟩
  obtain ⟨c, h1, -, -⟩ := value_solid hv hu' u
  rw [← he, solidEnd_blank hw', solidEnd_last _ (by decide)] at h1
  have hobj : ∀ ms : Bytes, 125 :: (b ++ [44] ++ w).reverse = (123 :: ms ++ [125]).reverse ++ u.reverse →
      solidEnd (b ++ [44] ++ w) = solidEnd (u ++ 123 :: ms) := by
    intro ms h
    simp only [List.reverse_append, List.reverse_cons, List.cons_append, List.reverse_nil, List.nil_append,
      List.cons.injEq, true_and] at h
    have h2 : (b ++ [44] ++ w).reverse = (u ++ 123 :: ms).reverse := by simpa using h
    unfold solidEnd
    rw [h2]
  have hcomma : solidEnd (b ++ [44] ++ w) = 44 :: b.reverse := by
    rw [solidEnd_blank hw, solidEnd_last _ (by decide)]
  cases hv with
  | literal h => rcases h with rfl | rfl | rfl <;> simp at h1
  | number h =>
    obtain ⟨x, c, rfl, hc⟩ := number_last h
    simp only [List.reverse_append, List.reverse_cons, List.reverse_nil, List.nil_append, List.cons_append,
      List.cons.injEq] at h1
    rw [← h1.1] at hc
    exact absurd hc.2 (by decide)
  | string => simp at h1
  | emptyArray => simp at h1
  | array => simp at h1
  | @emptyObject x hx =>
    have := hobj x h1
    have h2 : u ++ 123 :: x = u ++ [123] ++ x := by simp
    rw [hcomma, h2, solidEnd_blank hx, solidEnd_last _ (by decide)] at this
    simp at this
  | @object ms hm =>
    have := hobj ms h1
    obtain ⟨c, r, h2, h3⟩ := members_solid hm (u ++ [123])
    have h4 : u ++ 123 :: ms = u ++ [123] ++ ms := by simp
    rw [hcomma, h4, h2] at this
    injection this with h4
    exact h3 h4.symm

/-- **C85, the full claim:** what `--version` prints is JSON, for names that need no escapes. -/
def c85_full : Prop :=
  ∀ (name version : Bytes) (toolsFile : Option Bytes), JsonChars name → JsonChars version →
    (∀ t, toolsFile = some t → ∀ l ∈ cmakeStrings [] t, JsonChars l) → IsJson (printVersion name version toolsFile)

/-- **C85, never JSON.** What `--version` prints is no JSON, whatever the name, the version and the list of
tools: there is a comma behind the last member. -/
theorem c85_never_json_not (name version : Bytes) (toolsFile : Option Bytes) :
    ¬ IsJson (printVersion name version toolsFile) := by
  have h : ∃ b, printVersion name version toolsFile = b ++ [44] ++ b!"\n" ++ [125] ++ b!"\n" := by
    unfold printVersion versionText
    cases toolsFile with
    | none => exact ⟨b!"{\n    \"name\": \"" ++ name ++ b!"\",\n    \"version\": \"" ++ version ++ b!"\"", by simp⟩
    | some t =>
      exact ⟨b!"{\n    \"name\": \"" ++ name ++ b!"\",\n    \"version\": \"" ++ version ++ b!"\",\n" ++
        b!"    \"tools\": " ++ toolsJson (cmakeStrings [] t), by simp⟩
  obtain ⟨b, hb⟩ := h
  rw [hb]
  refine not_json_comma b _ _ ?_ ?_ <;>
  · intro c hc
    rw [List.mem_singleton.1 hc]
    simp

theorem c85_full_not : ¬ c85_full := fun h =>
  c85_never_json_not [] [] none (h [] [] none .nil .nil (by simp))

/-! ## Without the comma -/

theorem members_json {m : Bytes} {ms : List (Bytes × Bytes)} (h : Members m ms) : Json .members m := by
  induction h with
  | one h1 h2 h3 h4 h5 h6 => exact .member h1 h2 h3 h4 h5 h6
  | more _ h1 h2 h3 h4 h5 h6 ih => exact .moreMembers ih h1 h2 h3 h4 h5 h6

theorem strings_json {m : Bytes} {ss : List Bytes} (h : Strings m ss) : Json .elements m := by
  induction h with
  | one h1 h2 h3 => exact .element h1 (.string h2) h3
  | more _ h1 h2 h3 ih => exact .moreElements ih h1 (.string h2) h3

/-- What is called an object here is JSON. -/
theorem object_json {b : Bytes} {ms : List (Bytes × Bytes)} (h : JsonObject b ms) : IsJson b := by
  obtain ⟨w, m, w', h1, h2, h3, rfl⟩ := h
  exact ⟨w, _, w', h1, .object (members_json h2), h3, rfl⟩

theorem strings_from {m : Bytes} {ss : List Bytes} (h : Strings m ss) (more : List Bytes) (hm : ∀ l ∈ more, JsonChars l) :
    Strings (m ++ (more.flatMap fun l => b!", \"" ++ l ++ b!"\"")) (ss ++ more) := by
  induction more generalizing m ss with
  | nil => simpa using h
  | cons l more ih =>
    have h1 : Strings (m ++ 44 :: [32] ++ (34 :: l ++ [34]) ++ []) (ss ++ [l]) :=
      .more h (by intro c hc; simp at hc; simp [hc]) (hm l (by simp)) (by intro c hc; simp at hc)
    have := ih h1 (fun x hx => hm x (by simp [hx]))
    simpa using this

theorem intersperse_flatten (l : Bytes) (more : List Bytes) :
    ((l :: more).intersperse b!"\", \"").flatten ++ b!"\"" =
      l ++ b!"\"" ++ more.flatMap fun x => b!", \"" ++ x ++ b!"\"" := by
  induction more generalizing l with
  | nil => simp
  | cons y more ih =>
    have := ih y
    rw [List.intersperse_cons_cons]
    simp only [List.flatten_cons, List.append_assoc]
    rw [this]
    simp

theorem toolsJson_strings {lines : List Bytes} (hne : lines ≠ []) (h : ∀ l ∈ lines, JsonChars l) :
    JsonStrings (toolsJson lines) lines := by
  cases lines with
  | nil => exact absurd rfl hne
  | cons l more =>
    have h1 : Strings ([] ++ (34 :: l ++ [34]) ++ []) [l] :=
      .one (by intro c hc; simp at hc) (h l (by simp)) (by intro c hc; simp at hc)
    refine ⟨_, strings_from h1 more (fun x hx => h x (by simp [hx])), ?_⟩
    have := intersperse_flatten l more
    unfold toolsJson
    rw [show b!"[\"" ++ ((l :: more).intersperse b!"\", \"").flatten ++ b!"\"]" =
      b!"[\"" ++ (((l :: more).intersperse b!"\", \"").flatten ++ b!"\"") ++ b!"]" by simp, this]
    simp

/-- **C85, without the comma, partial.** If the comma behind the last member were left out, `--version` would print an
object with the name, the version and, if there is a `tools.txt` with some lines, an array of these lines.

Missing for the full claim: the comma (`c85_never_json_not`). -/
theorem c85_members_partial (name version : Bytes) (toolsFile : Option Bytes) (hn : JsonChars name)
    (hv : JsonChars version) (ht : ∀ t, toolsFile = some t → ∀ l ∈ cmakeStrings [] t, JsonChars l) :
    ∃ b tools, printVersion name version toolsFile = b ++ b!",\n}\n" ∧
      JsonObject (b ++ b!"\n}\n") ([(b!"name", 34 :: name ++ [34]), (b!"version", 34 :: version ++ [34])] ++ tools) ∧
      (toolsFile = none → tools = []) ∧
      ∀ t, toolsFile = some t → ∃ v, tools = [(b!"tools", v)] ∧
        (cmakeStrings [] t ≠ [] → JsonStrings v (cmakeStrings [] t)) := by
  have nobl : Blanks [] := by intro c hc; simp at hc
  have sp : Blanks b!" " := by intro c hc; simp at hc; simp [hc]
  have nl : Blanks b!"\n" := by intro c hc; simp at hc; simp [hc]
  have ind : Blanks b!"\n    " := by intro c hc; simp at hc; rcases hc with rfl | rfl <;> simp
  have chars : ∀ s ∈ [b!"name", b!"version", b!"tools"], JsonChars s := by
    intro s hs
    simp only [List.mem_cons, List.not_mem_nil, or_false] at hs
    rcases hs with rfl | rfl | rfl <;>
      repeat (first | exact .nil | refine .char (by decide) (by decide) (by decide) ?_)
  have h1 := Members.one ind (chars b!"name" (by simp)) nobl sp (Json.string hn) nobl
  cases toolsFile with
  | none =>
    have h2 := Members.more h1 ind (chars b!"version" (by simp)) nobl sp (Json.string hv) nl
    refine ⟨b!"{\n    \"name\": \"" ++ name ++ b!"\",\n    \"version\": \"" ++ version ++ b!"\"", [], ?_,
      ⟨[], _, b!"\n", nobl, h2, nl, ?_⟩, fun _ => rfl, fun t h => by cases h⟩
    · simp [printVersion, versionText]
    · simp
  | some t =>
    have hj : Json .value (toolsJson (cmakeStrings [] t)) := by
      by_cases hne : cmakeStrings [] t = []
      · rw [hne]
        exact .array (.element nobl (.string .nil) nobl)
      · obtain ⟨m, h3, h4⟩ := toolsJson_strings hne (ht t rfl)
        rw [h4]
        exact .array (strings_json h3)
    have h2 := Members.more h1 ind (chars b!"version" (by simp)) nobl sp (Json.string hv) nobl
    have h3 := Members.more h2 ind (chars b!"tools" (by simp)) nobl sp hj nl
    refine ⟨b!"{\n    \"name\": \"" ++ name ++ b!"\",\n    \"version\": \"" ++ version ++ b!"\",\n" ++
        b!"    \"tools\": " ++ toolsJson (cmakeStrings [] t), [(b!"tools", toolsJson (cmakeStrings [] t))], ?_,
      ⟨[], _, b!"\n", nobl, h3, nl, ?_⟩, (fun h => by cases h), fun t' h => ?_⟩
    · simp [printVersion, versionText]
    · simp
    · injection h with h
      subst h
      exact ⟨_, rfl, fun hne => toolsJson_strings hne (ht t rfl)⟩

/-- The list of two tools. -/
example : printVersion b!"SEMLA" b!"1.0" (some b!"Tool A\nB\n") =
    b!"{\n    \"name\": \"SEMLA\",\n    \"version\": \"1.0\",\n    \"tools\": [\"Tool A\", \"B\"],\n}\n" := by decide

example : JsonChars b!"SEMLA" ∧ ∀ l ∈ cmakeStrings [] b!"Tool A\nB\n", JsonChars l := by
  refine ⟨?_, ?_⟩
  · repeat (first | exact .nil | refine .char (by decide) (by decide) (by decide) ?_)
  · intro l hl
    have : l = b!"Tool A" ∨ l = b!"B" := by simpa [cmakeStrings] using hl
    rcases this with rfl | rfl <;>
      repeat (first | exact .nil | refine .char (by decide) (by decide) (by decide) ?_)

/-- There are JSON texts. -/
example : IsJson b!"{ \"a\": [1, true, {}], \"b\": \"x\" }\n" := by
  have nobl : Blanks [] := by intro c hc; simp at hc
  have sp : Blanks b!" " := by intro c hc; simp at hc; simp [hc]
  have one : Json .value b!"1" := .number ⟨[], b!"1", [], [], rfl, Or.inl rfl,
    Or.inr ⟨⟨by simp, by intro c hc; simp at hc; subst hc; unfold Digit; decide⟩, by decide⟩, Or.inl rfl, Or.inl rfl⟩
  have arr := Json.array (.moreElements (.moreElements (.element nobl one nobl) sp (.literal (Or.inl rfl)) nobl) sp
    (.emptyObject nobl) nobl)
  have chr : ∀ c : UInt8, 32 ≤ c → c ≠ 34 → c ≠ 92 → JsonChars [c] := fun c h1 h2 h3 => .char h1 h2 h3 .nil
  have ms := Json.moreMembers (.member sp (chr 97 (by decide) (by decide) (by decide)) nobl sp arr nobl) sp
    (chr 98 (by decide) (by decide) (by decide)) nobl sp
    (.string (chr 120 (by decide) (by decide) (by decide))) sp
  exact ⟨[], _, b!"\n", nobl, .object ms, by intro c hc; simp at hc; simp [hc], rfl⟩

/-- **C85, no tools.** A `tools.txt` without lines makes an array of one empty name. -/
theorem c85_no_tools_not (name version : Bytes) :
    JsonStrings (toolsJson (cmakeStrings [] [])) [[]] ∧
    printVersion name version (some []) = b!"{\n    \"name\": \"" ++ name ++ b!"\",\n    \"version\": \"" ++ version ++
      b!"\",\n    \"tools\": " ++ toolsJson (cmakeStrings [] []) ++ b!",\n}\n" := by
  refine ⟨⟨_, .one (w := []) (w' := []) (by intro c hc; simp at hc) .nil (by intro c hc; simp at hc), rfl⟩, ?_⟩
  simp [printVersion, versionText]

end Semla.Props
