import Verif.Model.Crypt

/-!
# The hash table of key masks

`HASH_FIND_STR` and `HASH_ADD_KEYPTR` of ThirdParty/uthash/uthash.h (2.1.0) as the key mask code uses them:
Jenkins' hash function, buckets with chains, and the expansion of the buckets.  `Model/Crypt` has an
association list in their place.

Simplified: the chain of a bucket (`hh_head`, `hh_next`, `hh_prev`) is a list; the order in which items were
added (`next`, `prev`, `tail`) is left out, nothing of SEMLA reads it.  `HASH_BLOOM`, `HASH_DEBUG` and
`HASH_NONFATAL_OOM` are not defined, `HASH_FUNCTION` is not overridden.
-/

namespace Semla

/-! ## Jenkins' hash function, uthash.h:649-701 -/

/-- `_hj_key[i]`, as an `unsigned`. -/
def keyByte (key : Bytes) (i : Nat) : Res UInt32 :=
  match key[i]? with
  | some b => .ok b.toUInt32
  | none => .ub .oobRead

/-- `key[i] + (key[i+1] << 8) + (key[i+2] << 16) + (key[i+3] << 24)`. -/
def keyWord (key : Bytes) (i : Nat) : Res UInt32 := do
  let a ← keyByte key i
  let b ← keyByte key (i + 1)
  let c ← keyByte key (i + 2)
  let d ← keyByte key (i + 3)
  .ok (a + (b <<< 8) + (c <<< 16) + (d <<< 24))

/-- The three variables of the hash function. -/
structure Jen where
  a : UInt32
  b : UInt32
  c : UInt32
  deriving DecidableEq, Repr

/-- `HASH_JEN_MIX`, uthash.h:649-660. -/
def jenMix (j : Jen) : Jen :=
  let a := (j.a - j.b - j.c) ^^^ (j.c >>> 13)
  let b := (j.b - j.c - a) ^^^ (a <<< 8)
  let c := (j.c - a - b) ^^^ (b >>> 13)
  let a := (a - b - c) ^^^ (c >>> 12)
  let b := (b - c - a) ^^^ (a <<< 16)
  let c := (c - a - b) ^^^ (b >>> 5)
  let a := (a - b - c) ^^^ (c >>> 3)
  let b := (b - c - a) ^^^ (a <<< 10)
  let c := (c - a - b) ^^^ (b >>> 15)
  ⟨a, b, c⟩

/-- The `while` loop, uthash.h:669-685: `n` rounds of twelve bytes, from offset `off`. -/
def jenLoop (key : Bytes) : Nat → Nat → Jen → Res Jen
  | 0, _, j => .ok j
  | n + 1, off, j => do
    let x ← keyWord key off
    let y ← keyWord key (off + 4)
    let z ← keyWord key (off + 8)
    jenLoop key n (off + 12) (jenMix ⟨j.a + x, j.b + y, j.c + z⟩)

/-- `case i + 1:` of the `switch`: the byte at `off + i`, shifted. -/
def jenByte (key : Bytes) (off k i : Nat) (shift : UInt32) : Res UInt32 :=
  if i < k then do
    let b ← keyByte key (off + i)
    .ok (b <<< shift)
  else .ok 0

/-- The `switch` over the last `k` bytes, uthash.h:687-699; every case falls through to the ones below. -/
def jenTail (key : Bytes) (off k : Nat) (j : Jen) : Res Jen := do
  let x10 ← jenByte key off k 10 24
  let x9 ← jenByte key off k 9 16
  let x8 ← jenByte key off k 8 8
  let x7 ← jenByte key off k 7 24
  let x6 ← jenByte key off k 6 16
  let x5 ← jenByte key off k 5 8
  let x4 ← jenByte key off k 4 0
  let x3 ← jenByte key off k 3 24
  let x2 ← jenByte key off k 2 16
  let x1 ← jenByte key off k 1 8
  let x0 ← jenByte key off k 0 0
  .ok ⟨j.a + x3 + x2 + x1 + x0, j.b + x7 + x6 + x5 + x4, j.c + x10 + x9 + x8⟩

/-- `HASH_JEN(key, keylen, hashv)`, uthash.h:662-701. -/
def hashJen (key : Bytes) (keylen : UInt32) : Res UInt32 := do
  let n := keylen.toNat / 12
  let j ← jenLoop key n 0 ⟨0x9e3779b9, 0x9e3779b9, 0xfeedbeef⟩
  let j ← jenTail key (12 * n) (keylen.toNat % 12) { j with c := j.c + keylen }
  .ok (jenMix j).c

/-! ## The table -/

/-- An item (`struct mlle_key_mask_map`, mlle_cr_context.h:18-24, with its hash handle): the bytes `hh.key`
points to, `hh.keylen`, `hh.hashv` and the mask. -/
structure HItem where
  key : Bytes
  keylen : UInt32
  hashv : UInt32
  mask : Bytes
  deriving DecidableEq, Repr

/-- `UT_hash_bucket`, uthash.h:1162-1180. -/
structure HBucket where
  chain : List HItem
  count : UInt32
  mult : UInt32
  deriving DecidableEq, Repr

/-- A bucket after `uthash_bzero`. -/
def HBucket.zero : HBucket := ⟨[], 0, 0⟩

/-- `UT_hash_table`, uthash.h:1186-1217, without the fields nothing reads. -/
structure HTable where
  buckets : List HBucket
  /-- `num_buckets` -/
  num : UInt32
  /-- `log2_num_buckets` -/
  log2 : UInt32
  /-- `num_items` -/
  items : UInt32
  /-- `ineff_expands` -/
  ineff : UInt32
  /-- `noexpand` -/
  noexpand : Bool
  deriving DecidableEq, Repr

/-- `HASH_TO_BKT`, uthash.h:441-444. -/
def toBkt (hashv num : UInt32) : Nat := (hashv &&& (num - 1)).toNat

/-- `(unsigned) strlen(s)`. -/
def uLen (s : Bytes) : UInt32 := UInt32.ofNat s.length

/-- `memcmp(a, b, n) == 0`: both objects must have `n` bytes. -/
def memEq (a b : Bytes) (n : Nat) : Res Bool :=
  if a.length < n ∨ b.length < n then .ub .oobRead else .ok (a.take n == b.take n)

/-- `HASH_FIND_IN_BKT`, uthash.h:838-857. -/
def findInBkt : List HItem → Bytes → UInt32 → UInt32 → Res (Option HItem)
  | [], _, _, _ => .ok none
  | it :: rest, k, len, h =>
    if it.hashv = h ∧ it.keylen = len then do
      let same ← memEq it.key k len.toNat
      if same then .ok (some it) else findInBkt rest k len h
    else findInBkt rest k len h

/-- `HASH_FIND_STR(head, k, out)`, uthash.h:164-184, 491-495. -/
def hashFind (head : Option HTable) (k : Bytes) : Res (Option HItem) :=
  match head with
  | none => .ok none
  | some t => do
    let h ← hashJen k (uLen k)
    match t.buckets[toBkt h t.num]? with
    | none => .ub .oobRead
    | some b => findInBkt b.chain k (uLen k) h

/-- One turn of the inner loop of `HASH_EXPAND_BUCKETS`, uthash.h:944-961: an item is put at the head of its
new bucket.  `num2` is `num_buckets * 2U`; the second component counts `nonideal_items`. -/
def moveItem (num2 ideal : UInt32) (st : List HBucket × UInt32) (it : HItem) : Res (List HBucket × UInt32) :=
  match st.1[toBkt it.hashv num2]? with
  | none => .ub .oobWrite
  | some b =>
    let count := b.count + 1
    let over := decide (ideal < count)
    let mult := if over ∧ b.mult * ideal < count then b.mult + 1 else b.mult
    .ok (st.1.set (toBkt it.hashv num2) ⟨it :: b.chain, count, mult⟩, if over then st.2 + 1 else st.2)

/-- The inner loop over one chain. -/
def moveChain (num2 ideal : UInt32) : List HItem → List HBucket × UInt32 → Res (List HBucket × UInt32)
  | [], st => .ok st
  | it :: rest, st => do
    let st ← moveItem num2 ideal st it
    moveChain num2 ideal rest st

/-- The outer loop over the first `num_buckets` buckets. -/
def moveAll (num2 ideal : UInt32) : List HBucket → List HBucket × UInt32 → Res (List HBucket × UInt32)
  | [], st => .ok st
  | b :: rest, st => do
    let st ← moveChain num2 ideal b.chain st
    moveAll num2 ideal rest st

/-- `HASH_EXPAND_BUCKETS`, uthash.h:926-977.  `alloc n` tells whether `malloc(n)` succeeds; `none` is
`exit(-1)` (`uthash_fatal`, uthash.h:130). A bucket takes 16 bytes. -/
def expandBuckets (alloc : Nat → Bool) (t : HTable) : Res (Option HTable) :=
  let n2 := 2 * t.num.toNat
  if !alloc (n2 * 16) then .ok none
  else if t.buckets.length < t.num.toNat then .ub .oobRead
  else do
    let num2 := t.num * 2
    let ideal := (t.items >>> (t.log2 + 1)) + (if t.items &&& (num2 - 1) ≠ 0 then 1 else 0)
    let r ← moveAll num2 ideal (t.buckets.take t.num.toNat) (List.replicate n2 HBucket.zero, 0)
    let ineff := if t.items >>> 1 < r.2 then t.ineff + 1 else 0
    .ok (some ⟨r.1, num2, t.log2 + 1, t.items, ineff, t.noexpand || decide (1 < ineff)⟩)

/-- `HASH_ADD_TO_TABLE` with `HASH_ADD_TO_BKT`, uthash.h:347-356, 860-880. -/
def addToTable (alloc : Nat → Bool) (t : HTable) (it : HItem) : Res (Option HTable) :=
  match t.buckets[toBkt it.hashv t.num]? with
  | none => .ub .oobWrite
  | some b =>
    let b : HBucket := ⟨it :: b.chain, b.count + 1, b.mult⟩
    let t : HTable := { t with items := t.items + 1, buckets := t.buckets.set (toBkt it.hashv t.num) b }
    if (b.mult + 1) * 10 ≤ b.count ∧ t.noexpand = false then expandBuckets alloc t else .ok (some t)

/-- `HASH_MAKE_TABLE`, uthash.h:223-251: `sizeof(UT_hash_table)` is 64. -/
def makeTable (alloc : Nat → Bool) : Option HTable :=
  if !alloc 64 then none
  else if !alloc (32 * 16) then none
  else some ⟨List.replicate 32 HBucket.zero, 32, 5, 0, 0, false⟩

/-- `HASH_ADD_KEYPTR(hh, head, key, keylen, item)`, uthash.h:407-433: the head afterwards, or `none` if the
program has ended with `exit(-1)`. -/
def hashAdd (alloc : Nat → Bool) (head : Option HTable) (key : Bytes) (keylen : Nat) (mask : Bytes) :
    Res (Option HTable) := do
  let len := UInt32.ofNat keylen
  let h ← hashJen key len
  match head with
  | some t => addToTable alloc t ⟨key, len, h, mask⟩
  | none =>
    match makeTable alloc with
    | none => .ok none
    | some t => addToTable alloc t ⟨key, len, h, mask⟩

end Semla
