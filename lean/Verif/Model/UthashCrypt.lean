import Verif.Model.Uthash

/-!
# Key masks with the hash table

The functions of `Model/Crypt` that read or change the table of key masks once more, this time with the hash
table of `Model/Uthash`.  `alloc` tells which sizes `malloc` grants to the hash table; the other allocations
succeed, as in `Model/Crypt`.
-/

namespace Semla

/-- A computation of a program that may end with `exit(-1)` (`.ok none`). -/
def Prog (α : Type) := Res (Option α)

namespace Prog

def bind (x : Prog α) (f : α → Prog β) : Prog β :=
  match x with
  | .ok (some a) => f a
  | .ok none => .ok none
  | .ub k => .ub k

instance : Monad Prog where
  pure a := .ok (some a)
  bind := bind

/-- A computation that does not exit. -/
def lift (x : Res α) : Prog α :=
  match x with
  | .ok a => .ok (some a)
  | .ub k => .ub k

/-- Undefined behaviour. -/
def ub (k : UB) : Prog α := Res.ub k

/-- `exit(-1)`. -/
def exit : Prog α := .ok none

end Prog

/-- `context->keymask_map`. -/
abbrev MaskHead := Option HTable

/-- `HASH_FIND_STR(key_mask_map, d, map_item)` and `map_item->key_mask`. -/
def findMask (head : MaskHead) (d : Bytes) : Prog (Option Bytes) :=
  Prog.lift (do let r ← hashFind head d; .ok (r.map (·.mask)))

/-- `HASH_ADD_KEYPTR(hh, key_mask_map, map_item->relpath, strlen(d), map_item)`. -/
def addMask (alloc : Nat → Bool) (head : MaskHead) (d m : Bytes) : Prog MaskHead :=
  match hashAdd alloc head d d.length m with
  | .ok (some t) => .ok (some (some t))
  | .ok none => .ok none
  | .ub k => .ub k

/-- Adding through the head captured at function entry, mlle_cr_encrypt.c:143-144, 178-179: if it was NULL a
new table is made, else the item goes to the table the head belongs to. -/
def addMaskVia (alloc : Nat → Bool) (captured now : MaskHead) (d m : Bytes) : Prog MaskHead :=
  addMask alloc (if captured.isNone then none else now) d m

/-- `mlle_mask_key`, mlle_cr_encrypt.c:77-191: head, key, return value and `store_mask`. -/
def maskKeyH (e : CrEnv) (alloc : Nat → Bool) (rand : Bytes → Bytes) :
    Nat → MaskHead → Bytes → Bytes → Prog (MaskHead × Bytes × Int × Bytes)
  | 0, _, _, _ => Prog.ub .tooDeep
  | fuel + 1, t, p, key =>
    let d := dirKey p
    if eqNoCase b!"package.mo" (fileName p) then do
      let item ← findMask t d
      if item.isSome then pure (t, key, -1, [])
      else
        let r ← if d.head? = some 47 then pure (t, key, 0, []) else maskKeyH e alloc rand fuel t d key
        if r.2.2.1 ≠ 0 then pure (r.1, r.2.1, -1, [])
        else
          let t' ← addMaskVia alloc t r.1 d (rand d)
          pure (t', r.2.1, 1, rand d)
    else do
      let item ← findMask t d
      match item with
      | some m => pure (t, e.mask key m, 0, [])
      | none =>
        let zeros := List.replicate e.keyLen 0
        let r ← if d.head? = some 47 then pure (t, zeros, 0, []) else maskKeyH e alloc rand fuel t d zeros
        if r.2.2.1 ≠ 0 then pure (r.1, key, -1, [])
        else
          let t' ← addMaskVia alloc t r.1 d r.2.1
          pure (t', e.mask key r.2.1, 0, [])

/-- `mlle_cr_encrypt`, mlle_cr_encrypt.c:199-315 (`crEncrypt`). -/
def crEncryptH (e : CrEnv) (alloc : Nat → Bool) (t : MaskHead) (p iv : Bytes) (rand : Bytes → Bytes)
    (inp : Bytes) (bad : Bool) (wOk : Nat → Bool) : Prog (MaskHead × Bytes × Bool) :=
  if ¬ wOk 0 then pure (t, [], false)
  else do
    let m ← maskKeyH e alloc rand (p.length + 2) t p e.key
    if m.2.2.1 < 0 then pure (m.1, iv, false)
    else do
      let b ← Prog.lift (encBody e m.2.1 iv inp bad m.2.2.1 m.2.2.2)
      pure (m.1, iv ++ (runWrites wOk 1 b.1).1, (runWrites wOk 1 b.1).2 && b.2)

/-- `mlle_store_keymask`, mlle_cr_decrypt.c:189-227. -/
def storeKeymaskH (alloc : Nat → Bool) (t : MaskHead) (p m : Bytes) : Prog MaskHead :=
  if p.length < 11 then Prog.ub .sizeWrap
  else
    let n := p.length - 12
    if longFileNameMax ≤ n then Prog.ub .oobWrite
    else do
      let d := if p.length = 11 ∨ n = 0 then b!"/" else p.take n
      let item ← findMask t d
      if item.isSome then pure t else addMask alloc t d m

/-- The end of `mlle_cr_decrypt`, mlle_cr_decrypt.c:295-341 (`decryptTail`). -/
def decryptTailH (e : CrEnv) (alloc : Nat → Bool) (t : MaskHead) (p key : Bytes) (flag : Int)
    (content : Bytes) : Prog (MaskHead × Int × Bytes) :=
  if content.length + 1 < 16 then Prog.ub .oobRead
  else
    let iv := (content ++ [0]).take 16
    let encLen := cInt ((content.length : Int) - 48)
    match evpDecrypt e.C key iv ((content.drop 16).take encLen.toNat) encLen with
    | none => pure (t, -1, [])
    | some plain =>
      if e.C.mac (key.take e.keyLen) (iv ++ plain) ≠ content.drop (content.length - 32) then
        pure (t, -1, plain)
      else if flag ≠ 0 then
        if plain.length < e.keyLen then Prog.ub .oobRead
        else do
          let n := plain.length - e.keyLen
          let t ← storeKeymaskH alloc t p (plain.drop n)
          pure (t, n, plain)
      else pure (t, plain.length, plain)

/-- `mlle_demask_key`, mlle_cr_decrypt.c:70-186 (`demaskKey`). -/
def demaskKeyH (e : CrEnv) (alloc : Nat → Bool) :
    Nat → MaskHead → Bytes → Bytes → Prog (MaskHead × Bytes × Int)
  | 0, _, _, _ => Prog.ub .tooDeep
  | fuel + 1, t, p, key =>
    let ls := lastSlash p
    if eqNoCase b!"package.moc" (fileName p) then
      if ls = 0 then pure (t, key, 1)
      else do
        let r ← demaskKeyH e alloc fuel t (p.take ls) key
        pure (r.1, r.2.1, if r.2.2 < 0 then -1 else 1)
    else do
      let item ← findMask t (dirKey p)
      match item with
      | some m => pure (t, e.mask key m, 0)
      | none =>
        if longFileNameMax < ls + 13 then Prog.ub .oobWrite
        else
          let q := if ls = 0 then b!"package.moc" else p.take ls ++ b!"/package.moc"
          match e.read (snprintf longFileNameMax (e.basedir ++ b!"/" ++ q)) with
          | none => demaskKeyH e alloc fuel t q key
          | some content => do
            let r ← demaskKeyH e alloc fuel t q e.key
            let s ← decryptTailH e alloc r.1 q r.2.1 r.2.2 content
            if 0 < s.2.1 then pure (s.1, e.mask key ((s.2.2.drop s.2.1.toNat).take e.keyLen), 0)
            else pure (s.1, key, -1)

/-- `mlle_cr_decrypt`, mlle_cr_decrypt.c:241-342. -/
def crDecryptH (e : CrEnv) (alloc : Nat → Bool) (t : MaskHead) (p content : Bytes) :
    Prog (MaskHead × Int × Bytes) := do
  let r ← demaskKeyH e alloc (demaskFuel p) t p e.key
  decryptTailH e alloc r.1 p r.2.1 r.2.2 content

end Semla
