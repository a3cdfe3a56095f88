import Verif.Basic

/-!
# Error objects

Models `src/common/mlle_error.c`.  Two levels: values (used by the rest of the model) and a heap
with addresses (for the memory behaviour of `mlle_error_free` and `mlle_error_propagate`).
-/

namespace Semla

/-- `struct mlle_error`, mlle_error.c:38-43, as a value.  The functions of the file only ever
store NULL in `cause`, so it is left out here; the heap level below has it. -/
structure Err where
  domain : Int
  code : Int
  message : Option Bytes
  deriving DecidableEq, Repr

/-- A `struct mlle_error **` argument: `none` is the null pointer, `some none` a location holding
NULL. -/
abbrev ErrLoc := Option (Option Err)

/-- `DEFAULT_MSG_SIZE`, mlle_error.c:30. -/
def defaultMsgSize : Nat := 2048

/-- `sizeof(struct mlle_error)` on LP64; only used as an argument of the allocation oracle. -/
def errStructSize : Nat := 24

/-- `mlle_error_new` / `mlle_error_new_valist`, mlle_error.c:47-87; `text` is the complete output of
the format. -/
def errorNew (mallocOk : Nat → Bool) (domain code : Int) (text : Bytes) : Option Err :=
  if mallocOk errStructSize then
    some ⟨domain, code,
      if mallocOk defaultMsgSize then some (snprintf defaultMsgSize text) else none⟩
  else none

/-- `mlle_error_new_literal`, mlle_error.c:106-128.  `strdup` may fail, which leaves NULL. -/
def errorNewLiteral (mallocOk : Nat → Bool) (domain code : Int) (msg : Option Bytes) :
    Option Err :=
  if mallocOk errStructSize then
    some ⟨domain, code,
      match msg with
      | none => none
      | some m => if mallocOk ((cstr m).length + 1) then some (cstr m) else none⟩
  else none

/-- `mlle_error_set`, mlle_error.c:89-104. -/
def errorSet (mallocOk : Nat → Bool) (loc : ErrLoc) (domain code : Int) (text : Bytes) :
    Res ErrLoc :=
  match loc with
  | none => .ok none
  | some (some _) => .ub .assertFail
  | some none => .ok (some (errorNew mallocOk domain code text))

/-- `mlle_error_set_literal`, mlle_error.c:130-140. -/
def errorSetLiteral (mallocOk : Nat → Bool) (loc : ErrLoc) (domain code : Int)
    (msg : Option Bytes) : Res ErrLoc :=
  match loc with
  | none => .ok none
  | some (some _) => .ub .assertFail
  | some none => .ok (some (errorNewLiteral mallocOk domain code msg))

/-! ### Heap level -/

/-- `struct mlle_error` in memory; the message text is owned by the object. -/
structure ErrObj where
  domain : Int
  code : Int
  cause : Option Nat
  message : Option Bytes
  deriving DecidableEq, Repr

/-- Live error objects by address. -/
abbrev ErrHeap := Nat → Option ErrObj

/-- `mlle_error_free(&p)`, mlle_error.c:142-156, for a non-null location holding `p`; the location
holds NULL afterwards in every case.  Freeing an address that is not live is undefined; `fuel`
bounds the recursion depth (a cyclic cause chain would never return). -/
def errorFree : Nat → ErrHeap → Option Nat → Option (Res ErrHeap)
  | _, h, none => some (.ok h)
  | 0, _, some _ => none
  | fuel + 1, h, some a =>
    match h a with
    | none => some (.ub .oobRead)
    | some o =>
      match errorFree fuel h o.cause with
      | none => none
      | some (.ub k) => some (.ub k)
      | some (.ok h') =>
        if h' a = none then some (.ub .oobRead)
        else some (.ok fun x => if x = a then none else h' x)

/-- `mlle_error_propagate(dest, src)`, mlle_error.c:158-169.  `dest` is `none` for the null pointer,
otherwise the content of the location.  Returns the heap and the new content of the location. -/
def errorPropagate (fuel : Nat) (h : ErrHeap) (dest : Option (Option Nat)) (src : Option Nat) :
    Option (Res (ErrHeap × Option (Option Nat))) :=
  match dest with
  | some (some _) => some (.ub .assertFail)
  | some none => some (.ok (h, some src))
  | none =>
    match errorFree fuel h src with
    | none => none
    | some (.ub k) => some (.ub k)
    | some (.ok h') => some (.ok (h', none))

/-- `mlle_error_get_domain/code/message/cause`, mlle_error.c:171-193: plain dereferences. -/
def errorGet (h : ErrHeap) (p : Option Nat) : Res ErrObj :=
  match p with
  | none => .ub .nullDeref
  | some a =>
    match h a with
    | none => .ub .oobRead
    | some o => .ok o

end Semla
