import Verif.Basic

/-!
# Encryption and decryption of library files

Models `src/decryptors/default/src/mlle_cr_encrypt.c`, `mlle_cr_decrypt.c` and
`mlle_cr_context.h`, with the algorithms of `src/encrypt_decrypt/mlle_cr_crypt.h`
(AES-256-CBC, HMAC-SHA256).

Not modelled: the Windows seeding code, `DISABLE_DEMASK_KEY` builds, logging to `mlle_log`,
failure of `malloc`/`calloc`/`RAND_bytes` and of the EVP/HMAC set-up calls.
-/

namespace Semla

/-- The primitives: one block encryption / decryption under a 32-byte key and the MAC.  Their
behaviour is arbitrary; theorems assume `Crypto.Good`. -/
structure Crypto where
  enc : Bytes → Bytes → Bytes
  dec : Bytes → Bytes → Bytes
  mac : Bytes → Bytes → Bytes

/-- What is assumed of AES and HMAC-SHA256: blocks of 16 bytes are mapped to blocks of 16 bytes,
decryption inverts encryption, MACs have 32 bytes.  Nothing about secrecy or unforgeability. -/
structure Crypto.Good (C : Crypto) : Prop where
  enc_length : ∀ k b, b.length = 16 → (C.enc k b).length = 16
  dec_length : ∀ k b, b.length = 16 → (C.dec k b).length = 16
  dec_enc : ∀ k b, b.length = 16 → C.dec k (C.enc k b) = b
  mac_length : ∀ k m, (C.mac k m).length = 32

/-- Byte-wise exclusive or of two blocks. -/
def xorBytes (a b : Bytes) : Bytes := List.zipWith (· ^^^ ·) a b

/-! ## EVP streaming (OpenSSL, trusted base) -/

/-- Complete 16-byte blocks of a byte string, and the rest.  `fuel` bounds the recursion. -/
def splitBlocks : Nat → Bytes → List Bytes × Bytes
  | 0, d => ([], d)
  | fuel + 1, d =>
    if d.length < 16 then ([], d)
    else
      let r := splitBlocks fuel (d.drop 16)
      (d.take 16 :: r.1, r.2)

/-- CBC encryption of complete blocks; also returns the chaining block for what follows. -/
def cbcEnc (E : Bytes → Bytes) : Bytes → List Bytes → Bytes × Bytes
  | prev, [] => ([], prev)
  | prev, b :: bs =>
    let c := E (xorBytes b prev)
    let r := cbcEnc E c bs
    (c ++ r.1, r.2)

/-- CBC decryption of complete blocks. -/
def cbcDec (D : Bytes → Bytes) : Bytes → List Bytes → Bytes
  | _, [] => []
  | prev, c :: cs => xorBytes (D c) prev ++ cbcDec D c cs

/-- Encryption context: chaining block and buffered partial block. -/
structure EncCtx where
  prev : Bytes
  buf : Bytes
  deriving DecidableEq, Repr

/-- `EVP_EncryptUpdate`: outputs every complete block, keeps the rest. -/
def encUpdate (C : Crypto) (key : Bytes) (ctx : EncCtx) (inp : Bytes) : Bytes × EncCtx :=
  let d := ctx.buf ++ inp
  let s := splitBlocks d.length d
  let r := cbcEnc (C.enc key) ctx.prev s.1
  (r.1, ⟨r.2, s.2⟩)

/-- `EVP_EncryptFinal_ex`: PKCS#7 padding, always one more block. -/
def encFinal (C : Crypto) (key : Bytes) (ctx : EncCtx) : Bytes :=
  let n := 16 - ctx.buf.length
  (cbcEnc (C.enc key) ctx.prev [ctx.buf ++ List.replicate n (UInt8.ofNat n)]).1

/-- `EVP_DecryptUpdate` followed by `EVP_DecryptFinal_ex` on `encLen` bytes: fails for a
negative or zero length, for an incomplete last block and for wrong padding. -/
def evpDecrypt (C : Crypto) (key iv enc : Bytes) (encLen : Int) : Option Bytes :=
  if encLen ≤ 0 then none
  else
    let s := splitBlocks enc.length enc
    if s.2 ≠ [] then none
    else
      let d := cbcDec (C.dec key) iv s.1
      match d.getLast? with
      | none => none
      | some p =>
        let n := p.toNat
        if n = 0 ∨ 16 < n then none
        else if d.drop (d.length - n) = List.replicate n p then some (d.take (d.length - n))
        else none

/-! ## Contexts -/

/-- The table of key masks, `keymask_map` of mlle_cr_context.h:24-27 (uthash): directory key and
mask, oldest first. -/
abbrev MaskTable := List (Bytes × Bytes)

/-- `HASH_FIND_STR`. -/
def MaskTable.find (t : MaskTable) (d : Bytes) : Option Bytes :=
  (List.find? (fun e => e.1 == d) t).map (·.2)

/-- What an encryption or decryption context depends on: the primitives, the embedded key with
its declared length `MLLE_CR_KEY_LEN`, the base directory, and `mlle_io_read_file`
(mlle_io.c:58-171; `none` = an error was set).

`keyLen` is the number of bytes `create_header_file` (obfuscate_utils.c:73-88) left after
removing carriage returns; the cipher always reads 32 bytes of the array. -/
structure CrEnv where
  C : Crypto
  key : Bytes
  keyLen : Nat
  basedir : Bytes
  read : Bytes → Option Bytes

/-- `for (i = 0; i < MLLE_CR_KEY_LEN; ++i) key[i] = key[i] ^ mask[i];` -/
def CrEnv.mask (e : CrEnv) (key m : Bytes) : Bytes :=
  xorBytes (key.take e.keyLen) m ++ key.drop e.keyLen

/-- `MLLE_LONG_FILE_NAME_MAX`, mlle_error.h:24. -/
def longFileNameMax : Nat := 4096

/-- Is this byte `/` or `\`? -/
def isSep (c : UInt8) : Bool := c == 47 || c == 92

/-- Position of the last separator in `p`, counted from `i`, or `acc`. -/
def lastSepFrom : Bytes → Nat → Nat → Nat
  | [], _, acc => acc
  | c :: cs, i, acc => lastSepFrom cs (i + 1) (if isSep c then i else acc)

/-- `last_slash_index` as computed in mlle_cr_encrypt.c:96-104 and mlle_cr_decrypt.c:90-98: the
index of the last separator among the first 4096 bytes; 0 also when there is none. -/
def lastSlash (p : Bytes) : Nat := lastSepFrom (p.take longFileNameMax) 0 0

/-- The name after the last separator, as tested in mlle_cr_encrypt.c:105-114 and
mlle_cr_decrypt.c:101-106. -/
def fileName (p : Bytes) : Bytes := if lastSlash p = 0 then p else p.drop (lastSlash p + 1)

/-- The key of the directory in the mask table: the path before the last separator, or `/`. -/
def dirKey (p : Bytes) : Bytes := if lastSlash p = 0 then b!"/" else p.take (lastSlash p)

/-! ## Encryption -/

/-- Adding an item through the head pointer captured at function entry
(`HASH_ADD_KEYPTR(hh, key_mask_map, ...); context->keymask_map = key_mask_map;`,
mlle_cr_encrypt.c:143-144, 178-179).  If the captured head was NULL (`wasEmpty`), a new table
is started and whatever recursive calls put into the context is lost. -/
def addItem (wasEmpty : Bool) (now : MaskTable) (d m : Bytes) : MaskTable :=
  if wasEmpty then [(d, m)] else now ++ [(d, m)]

/-- Result of `mlle_mask_key`: the table afterwards, the masked key, and the return value with
`store_mask` if it is 1. -/
structure MaskOut where
  table : MaskTable
  key : Bytes
  /-- `-1`, `0` or `1` -/
  ret : Int
  /-- contents of `store_mask` if `ret = 1` -/
  stored : Bytes
  deriving DecidableEq, Repr

/-- `mlle_mask_key`, mlle_cr_encrypt.c:77-191.  `rand d` is what `RAND_bytes` delivers if a mask
for directory `d` is drawn during this call.  The recursion (on the path of the directory) is
bounded by `fuel`. -/
def maskKey (e : CrEnv) (rand : Bytes → Bytes) : Nat → MaskTable → Bytes → Bytes → Res MaskOut
  | 0, _, _, _ => .ub .tooDeep
  | fuel + 1, t, p, key =>
    let d := dirKey p
    if eqNoCase b!"package.mo" (fileName p) then
      match t.find d with
      | some _ => .ok ⟨t, key, -1, []⟩
      | none => do
        let r ← if d.head? = some 47 then Res.ok ⟨t, key, 0, []⟩ else maskKey e rand fuel t d key
        if r.ret ≠ 0 then .ok ⟨r.table, r.key, -1, []⟩
        else .ok ⟨addItem t.isEmpty r.table d (rand d), r.key, 1, rand d⟩
    else
      match t.find d with
      | some m => .ok ⟨t, e.mask key m, 0, []⟩
      | none => do
        let zeros := List.replicate e.keyLen 0
        let r ← if d.head? = some 47 then Res.ok ⟨t, zeros, 0, []⟩ else maskKey e rand fuel t d zeros
        if r.ret ≠ 0 then .ok ⟨r.table, key, -1, []⟩
        else .ok ⟨addItem t.isEmpty r.table d r.key, e.mask key r.key, 0, []⟩

/-- `READ_BUF_LEN` and `CRYPT_BUF_LEN`, mlle_cr_encrypt.c:64-65. -/
def readBufLen : Nat := 256
def cryptBufLen : Nat := readBufLen + 32

/-- `EVP_EncryptUpdate` into `crypt_buf`; writing more than its size is undefined. -/
def encUpdateBuf (C : Crypto) (key : Bytes) (ctx : EncCtx) (inp : Bytes) : Res (Bytes × EncCtx) :=
  let r := encUpdate C key ctx inp
  if r.1.length ≤ cryptBufLen then .ok r else .ub .oobWrite

/-- The read loop, mlle_cr_encrypt.c:261-276: full portions of 256 bytes, then the short (maybe
empty) one that makes `feof` true.  `bad` = the short portion came with `ferror`.  Returns the
portions to write, and the context unless the read failed. -/
def encLoop (C : Crypto) (key : Bytes) (bad : Bool) :
    Nat → EncCtx → Bytes → Res (List Bytes × Option EncCtx)
  | 0, _, _ => .ub .tooDeep
  | fuel + 1, ctx, inp =>
    if inp.length < readBufLen then
      if bad then .ok ([], none)
      else do
        let (o, ctx) ← encUpdateBuf C key ctx inp
        .ok ([o], some ctx)
    else do
      let (o, ctx) ← encUpdateBuf C key ctx (inp.take readBufLen)
      let (os, r) ← encLoop C key bad fuel ctx (inp.drop readBufLen)
      .ok (o :: os, r)

/-- A sequence of `fwrite`s; `wOk i` tells whether the `i`-th one succeeds (writing zero bytes
always does).  Stops at the first failure.  The bytes written and success. -/
def runWrites (wOk : Nat → Bool) : Nat → List Bytes → Bytes × Bool
  | _, [] => ([], true)
  | i, w :: ws =>
    if w = [] || wOk i then
      let r := runWrites wOk (i + 1) ws
      (w ++ r.1, r.2)
    else ([], false)

/-- Everything `mlle_cr_encrypt` writes after the IV, mlle_cr_encrypt.c:250-301, in order;
`none` at the end: the input could not be read to its end. -/
def encBody (e : CrEnv) (key iv inp : Bytes) (bad : Bool) (flag : Int) (stored : Bytes) :
    Res (List Bytes × Bool) := do
  let (ws, r) ← encLoop e.C key bad (inp.length + 1) ⟨iv, []⟩ inp
  match r with
  | none => .ok (ws, false)
  | some ctx => do
    let (ws2, ctx) ← if flag ≠ 0 then do
        let (o, ctx) ← encUpdateBuf e.C key ctx stored
        Res.ok (ws ++ [o], ctx)
      else Res.ok (ws, ctx)
    let payload := inp ++ (if flag ≠ 0 then stored else [])
    .ok (ws2 ++ [encFinal e.C key ctx, e.C.mac (key.take e.keyLen) (iv ++ payload)], true)

/-- `mlle_cr_encrypt`, mlle_cr_encrypt.c:199-315: reads `inp` (then a read error if `bad`), draws
`iv`, writes to `out` subject to `wOk`.  Returns the table, what was written, and the return
value. -/
def crEncrypt (e : CrEnv) (t : MaskTable) (p iv : Bytes) (rand : Bytes → Bytes) (inp : Bytes)
    (bad : Bool) (wOk : Nat → Bool) : Res (MaskTable × Bytes × Bool) :=
  if ¬ wOk 0 then .ok (t, [], false)
  else do
    let m ← maskKey e rand (p.length + 2) t p e.key
    if m.ret < 0 then .ok (m.table, iv, false)
    else do
      let (ws, complete) ← encBody e m.key iv inp bad m.ret m.stored
      let (o, ok) := runWrites wOk 1 ws
      .ok (m.table, iv ++ o, ok && complete)

/-! ## Decryption -/

/-- Conversion to a 32-bit `int` (gcc: modulo 2^32). -/
def cInt (n : Int) : Int := (n + 2147483648) % 4294967296 - 2147483648

/-- `mlle_store_keymask`, mlle_cr_decrypt.c:189-227.  `rel_file_path_len - 12` wraps for paths
shorter than `/package.moc` (other than 11 bytes), and `relpath` has 4096 bytes. -/
def storeKeymask (t : MaskTable) (p m : Bytes) : Res MaskTable :=
  if p.length < 11 then .ub .sizeWrap
  else
    let n := p.length - 12
    if longFileNameMax ≤ n then .ub .oobWrite
    else
      let d := if p.length = 11 ∨ n = 0 then b!"/" else p.take n
      match t.find d with
      | some _ => .ok t
      | none => .ok (t ++ [(d, m)])

/-- `mlle_cr_decrypt` after `mlle_demask_key`, mlle_cr_decrypt.c:295-341, on an input object
`content` followed by the NUL `mlle_io_read_file` puts behind it.  `out` starts with the bytes
returned as third component.  `EVP_DecryptUpdate` writes at most `in_len - 48` bytes to `out`,
which every caller makes at least `in_len` bytes long. -/
def decryptTail (e : CrEnv) (t : MaskTable) (p key : Bytes) (flag : Int) (content : Bytes) :
    Res (MaskTable × Int × Bytes) :=
  if content.length + 1 < 16 then .ub .oobRead
  else
    let iv := (content ++ [0]).take 16
    let encLen := cInt ((content.length : Int) - 48)
    match evpDecrypt e.C key iv ((content.drop 16).take encLen.toNat) encLen with
    | none => .ok (t, -1, [])
    | some plain =>
      if e.C.mac (key.take e.keyLen) (iv ++ plain) ≠ content.drop (content.length - 32) then
        .ok (t, -1, plain)
      else if flag ≠ 0 then
        if plain.length < e.keyLen then .ub .oobRead
        else do
          let n := plain.length - e.keyLen
          let t ← storeKeymask t p (plain.drop n)
          .ok (t, n, plain)
      else .ok (t, plain.length, plain)

/-- `mlle_demask_key`, mlle_cr_decrypt.c:70-186, with the call of `mlle_cr_decrypt` for the
directory's `package.moc` (line 158) written out.  Returns the table, the key and the return
value. -/
def demaskKey (e : CrEnv) : Nat → MaskTable → Bytes → Bytes → Res (MaskTable × Bytes × Int)
  | 0, _, _, _ => .ub .tooDeep
  | fuel + 1, t, p, key =>
    let ls := lastSlash p
    if eqNoCase b!"package.moc" (fileName p) then
      if ls = 0 then .ok (t, key, 1)
      else do
        let (t, key, r) ← demaskKey e fuel t (p.take ls) key
        .ok (t, key, if r < 0 then -1 else 1)
    else
      match t.find (dirKey p) with
      | some m => .ok (t, e.mask key m, 0)
      | none =>
        if longFileNameMax < ls + 13 then .ub .oobWrite
        else
          let q := if ls = 0 then b!"package.moc" else p.take ls ++ b!"/package.moc"
          match e.read (snprintf longFileNameMax (e.basedir ++ b!"/" ++ q)) with
          | none => demaskKey e fuel t q key
          | some content => do
            let (t, k, flag) ← demaskKey e fuel t q e.key
            let (t, r, out) ← decryptTail e t q k flag content
            if 0 < r then .ok (t, e.mask key ((out.drop r.toNat).take e.keyLen), 0)
            else .ok (t, key, -1)

/-- Enough recursion depth for any path: two calls per directory level. -/
def demaskFuel (p : Bytes) : Nat := 2 * p.length + 3

/-- `mlle_cr_decrypt`, mlle_cr_decrypt.c:241-342, with a non-null input.  Returns the table, the
return value and the bytes written to `out`. -/
def crDecrypt (e : CrEnv) (t : MaskTable) (p content : Bytes) : Res (MaskTable × Int × Bytes) := do
  let (t, key, flag) ← demaskKey e (demaskFuel p) t p e.key
  decryptTail e t p key flag content

/-- `mlle_cr_decrypt` with a null context: no key masks are involved (line 291). -/
def crDecryptNoContext (e : CrEnv) (content : Bytes) : Res (Int × Bytes) := do
  let (_, n, out) ← decryptTail e [] [] e.key 0 content
  .ok (n, out)

end Semla
