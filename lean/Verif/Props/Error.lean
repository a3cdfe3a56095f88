import Verif.Model.Error

/-!
# Properties of error objects: C29
-/

namespace Semla.Props

open Semla

/-! ## C29, contents -/

/-- **C29.** Reporting into an empty location (memory available) stores exactly the domain, the code and
the message: formatted messages cut at 2047 bytes, literal ones whole. -/
theorem c29_recorded (domain code : Int) (text : Bytes) :
    errorSet (fun _ => true) (some none) domain code text =
      .ok (some (some ⟨domain, code, some (text.take 2047)⟩)) ∧
    errorSetLiteral (fun _ => true) (some none) domain code (some text) =
      .ok (some (some ⟨domain, code, some (text.takeWhile (· ≠ 0))⟩)) ∧
    errorSetLiteral (fun _ => true) (some none) domain code none =
      .ok (some (some ⟨domain, code, none⟩)) := by
  refine ⟨by simp [errorSet, errorNew, snprintf, defaultMsgSize], ?_, ?_⟩
  · simp [errorSetLiteral, errorNewLiteral, cstr]
  · simp [errorSetLiteral, errorNewLiteral]

/-- **C29.** Without memory the error is lost, but the location stays null and nothing else happens. -/
theorem c29_no_memory (mallocOk : Nat → Bool) (h : mallocOk errStructSize = false)
    (domain code : Int) (text : Bytes) (msg : Option Bytes) :
    errorSet mallocOk (some none) domain code text = .ok (some none) ∧
    errorSetLiteral mallocOk (some none) domain code msg = .ok (some none) := by
  constructor <;> simp [errorSet, errorSetLiteral, errorNew, errorNewLiteral, h]

/-- **C29.** A null location is always safe. -/
theorem c29_null_location (mallocOk : Nat → Bool) (domain code : Int) (text : Bytes)
    (msg : Option Bytes) :
    errorSet mallocOk none domain code text = .ok none ∧
    errorSetLiteral mallocOk none domain code msg = .ok none := ⟨rfl, rfl⟩

/-- **C29.** An error that is already there is never overwritten: a second report stops the program. -/
theorem c29_first_error_kept (mallocOk : Nat → Bool) (e : Err) (domain code : Int) (text : Bytes)
    (msg : Option Bytes) (loc : ErrLoc) :
    errorSet mallocOk (some (some e)) domain code text ≠ .ok loc ∧
    errorSetLiteral mallocOk (some (some e)) domain code msg ≠ .ok loc := by
  constructor <;> simp [errorSet, errorSetLiteral]

/-- Consequence for histories: whatever reports are made to one location, if the program survives,
what it holds in the end is what the first successful report put there. -/
theorem c29_history (mallocOk : Nat → Bool) (reports : List (Int × Int × Bytes)) (loc loc' : ErrLoc)
    (h : reports.foldlM (fun l (r : Int × Int × Bytes) => errorSet mallocOk l r.1 r.2.1 r.2.2) loc
      = .ok loc') :
    loc = none ∧ loc' = none ∨ loc' = loc ∨
    loc = some none ∧ ∃ r ∈ reports, loc' = some (errorNew mallocOk r.1 r.2.1 r.2.2) := by
  induction reports generalizing loc with
  | nil => right; left; simpa using h.symm
  | cons r rs ih =>
    simp only [List.foldlM_cons] at h
    rw [Res.bind_eq_ok] at h
    obtain ⟨l1, h1, h2⟩ := h
    cases loc with
    | none =>
      simp [errorSet] at h1; subst h1
      rcases ih none h2 with ⟨_, h3⟩ | h3 | ⟨h3, _⟩
      · exact Or.inl ⟨rfl, h3⟩
      · exact Or.inl ⟨rfl, h3⟩
      · simp at h3
    | some o =>
      cases o with
      | some e => simp [errorSet] at h1
      | none =>
        simp [errorSet] at h1
        subst h1
        rcases ih _ h2 with ⟨h3, _⟩ | h3 | ⟨h3, r', hr, h4⟩
        · simp at h3
        · right; right; exact ⟨rfl, r, by simp, h3⟩
        · right; right; exact ⟨rfl, r', by simp [hr], h4⟩

example : errorSet (fun _ => true) (some none) 2 1 (List.replicate 3000 65) =
    .ok (some (some ⟨2, 1, some (List.replicate 2047 65)⟩)) := by
  rw [(c29_recorded 2 1 _).1, List.take_replicate]; rfl

/-! ## C29, memory -/

/-- The chain of causes starting at `p` consists of the live objects at these addresses. -/
inductive Chain (h : ErrHeap) : Option Nat → List Nat → Prop where
  | nil : Chain h none []
  | cons {a o l} : h a = some o → Chain h o.cause l → Chain h (some a) (a :: l)

theorem Chain.unique {h : ErrHeap} {p : Option Nat} {l l' : List Nat} (h1 : Chain h p l)
    (h2 : Chain h p l') : l = l' := by
  induction h1 generalizing l' with
  | nil => cases h2; rfl
  | cons ho _ ih =>
    cases h2 with
    | cons ho' hc' => rw [ho] at ho'; simp at ho'; subst ho'; rw [ih hc']

theorem Chain.suffix {h : ErrHeap} {p : Option Nat} {l : List Nat} (hc : Chain h p l) {a : Nat}
    (ha : a ∈ l) : ∃ l', Chain h (some a) l' ∧ l'.length ≤ l.length := by
  induction hc with
  | nil => simp at ha
  | @cons b o l ho hc ih =>
    rcases List.mem_cons.1 ha with rfl | ha
    · exact ⟨_, .cons ho hc, by simp⟩
    · obtain ⟨l', h1, h2⟩ := ih ha
      exact ⟨l', h1, by simp; omega⟩

theorem Chain.not_mem {h : ErrHeap} {a : Nat} {o : ErrObj} {l : List Nat} (ho : h a = some o)
    (hc : Chain h o.cause l) : a ∉ l := by
  intro ha
  obtain ⟨l', h1, h2⟩ := hc.suffix ha
  have := Chain.unique h1 (.cons ho hc)
  subst this
  simp at h2
  omega

/-- **C29.** Releasing an error releases the object and its whole chain of causes, each exactly once,
and nothing else. -/
theorem c29_free_chain (h : ErrHeap) (p : Option Nat) (l : List Nat) (hc : Chain h p l)
    (fuel : Nat) (hf : l.length ≤ fuel) :
    errorFree fuel h p = some (.ok fun x => if x ∈ l then none else h x) := by
  induction hc generalizing fuel with
  | nil => cases fuel <;> simp [errorFree]
  | @cons a o l ho hc ih =>
    obtain ⟨fuel, rfl⟩ : ∃ f, fuel = f + 1 := ⟨fuel - 1, by simp at hf; omega⟩
    have := ih fuel (by simp at hf; omega)
    have ha := hc.not_mem ho
    simp only [errorFree, ho, this, ha, if_false]
    simp only [ho, reduceCtorEq, if_false, Option.some.injEq, Res.ok.injEq]
    funext x
    by_cases hx : x = a
    · simp [hx]
    · simp [hx]

/-- **C29.** Propagating to an empty location hands the error over untouched; propagating to a null
location releases it with its causes. -/
theorem c29_propagate (h : ErrHeap) (p : Option Nat) (l : List Nat) (hc : Chain h p l)
    (fuel : Nat) (hf : l.length ≤ fuel) :
    errorPropagate fuel h (some none) p = some (.ok (h, some p)) ∧
    errorPropagate fuel h none p = some (.ok ((fun x => if x ∈ l then none else h x), none)) := by
  refine ⟨rfl, ?_⟩
  simp [errorPropagate, c29_free_chain h p l hc fuel hf]

-- an error with one cause: both released, the unrelated object at 7 stays
def exampleHeap : ErrHeap := fun a =>
  if a = 1 then some ⟨2, 1, some 2, none⟩ else if a = 2 then some ⟨1, 1, none, some b!"x"⟩
  else if a = 7 then some ⟨3, 3, none, none⟩ else none
example : Chain exampleHeap (some 1) [1, 2] :=
  .cons (o := ⟨2, 1, some 2, none⟩) rfl (.cons (o := ⟨1, 1, none, some b!"x"⟩) rfl .nil)
example : ∃ h', errorFree 5 exampleHeap (some 1) = some (.ok h') ∧ h' 1 = none ∧ h' 2 = none ∧
    h' 7 = some ⟨3, 3, none, none⟩ := ⟨_, rfl, rfl, rfl, rfl⟩

/-- Reading any field of a null error object is undefined (the getters do not check). -/
theorem c29_getter_null_negated (h : ErrHeap) : errorGet h none = .ub .nullDeref := rfl

end Semla.Props
