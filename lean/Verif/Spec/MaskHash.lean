import Verif.Spec.Crypt
import Verif.Model.UthashCrypt

/-! What the table of key masks is used for, with the hash table of uthash: a sequence of additions, the
encryption of a library, and a sequence of requests. -/

namespace Semla.Spec
open Semla

/-- `malloc` never grants 64 GiB or more in one block. -/
def NoHugeBlocks (alloc : Nat → Bool) : Prop := ∀ n, 2 ^ 36 ≤ n → alloc n = false

/-- Some request for memory was refused. -/
def Refused (alloc : Nat → Bool) : Prop := ∃ n, alloc n = false

/-- `HASH_ADD_KEYPTR` once for every directory and mask of the list, each time with its own supply of memory. -/
def storeAll : List ((Nat → Bool) × Bytes × Bytes) → MaskHead → Prog MaskHead
  | [], head => pure head
  | (alloc, d, m) :: rest, head => do
    let head ← addMask alloc head d m
    storeAll rest head

/-- `encryptAll` with the hash table. -/
def encryptAllH (e : CrEnv) : MaskHead → List ((Nat → Bool) × Job) → Prog (Option (List (Bytes × Bytes)))
  | _, [] => pure (some [])
  | t, (alloc, j) :: js => do
    let r ← crEncryptH e alloc t j.path j.iv (fun _ => j.mask) j.plain false (fun _ => true)
    if r.2.2 then do
      let rest ← encryptAllH e r.1 js
      pure (rest.map ((j.path ++ b!"c", r.2.1) :: ·))
    else pure none

/-- `decryptAll` with the hash table. -/
def decryptAllH (e : CrEnv) : MaskHead → List ((Nat → Bool) × Bytes) → Prog (List (Option Bytes))
  | _, [] => pure []
  | t, (alloc, p) :: ps =>
    match e.read (e.basedir ++ b!"/" ++ p) with
    | none => do
      let r ← decryptAllH e t ps
      pure (none :: r)
    | some content => do
      let x ← crDecryptH e alloc t p content
      let r ← decryptAllH e x.1 ps
      pure ((if x.2.1 < 0 then none else some (x.2.2.take x.2.1.toNat)) :: r)

end Semla.Spec
