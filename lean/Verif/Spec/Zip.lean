import Verif.Basic

/-!
# ZIP archives

What is in a ZIP archive, after the description of the format (APPNOTE.TXT of PKWARE, sections 4.3 and 4.4): a
strict reader, which follows the directory at the end of the archive, compares it with the headers in front of
the files, and checks sizes and check sums.  Decompression is a parameter.
-/

namespace Semla.Spec
open Semla

/-- The number stored in bytes, the lowest first. -/
def number : Bytes → Nat
  | [] => 0
  | c :: r => c.toNat + 256 * number r

/-- `n` bytes from position `i` on. -/
def part (f : Bytes) (i n : Nat) : Bytes := (f.drop i).take n

/-- The number in `n` bytes from position `i` on. -/
def field (f : Bytes) (i n : Nat) : Nat := number (part f i n)

/-- One bit of CRC-32. -/
def crcBit (r : UInt32) : UInt32 := if r &&& 1 = 1 then (r >>> 1) ^^^ 0xEDB88320 else r >>> 1

/-- One byte of CRC-32: eight bits. -/
def crcByte (r : UInt32) (b : UInt8) : UInt32 :=
  crcBit (crcBit (crcBit (crcBit (crcBit (crcBit (crcBit (crcBit (r ^^^ b.toUInt32))))))))

/-- CRC-32. -/
def crc32 (d : Bytes) : UInt32 := ~~~ (d.foldl crcByte 0xFFFFFFFF)

/-- The file with central header `c` (the archive from the header on), in the archive `f`. -/
def unzipFile (inflate : Bytes → Option Bytes) (f c : Bytes) : Option (Bytes × Bytes) :=
  let method := field c 10 2
  let comp := field c 20 4
  let name := part c 46 (field c 28 2)
  let l := f.drop (field c 42 4)
  let data := part l (30 + field l 26 2 + field l 28 2) comp
  let content := if method = 0 then some data else if method = 8 then inflate data else none
  match content with
  | none => none
  | some d =>
    if part c 0 4 = [0x50, 0x4b, 1, 2] ∧ part l 0 4 = [0x50, 0x4b, 3, 4] ∧ field c 8 2 = 0 ∧
      part l 6 2 = part c 8 2 ∧ part l 8 2 = part c 10 2 ∧ part l 14 12 = part c 16 12 ∧
      part l 30 (field l 26 2) = name ∧ data.length = comp ∧ d.length = field c 24 4 ∧
      (crc32 d).toNat = field c 16 4
    then some (name, d) else none

/-- The files of a directory of `n` files (the archive from the directory on), and what follows it. -/
def unzipDir (inflate : Bytes → Option Bytes) (f : Bytes) : Nat → Bytes → Option (List (Bytes × Bytes) × Bytes)
  | 0, c => some ([], c)
  | n + 1, c =>
    match unzipFile inflate f c with
    | none => none
    | some e =>
      match unzipDir inflate f n (c.drop (46 + field c 28 2 + field c 30 2 + field c 32 2)) with
      | none => none
      | some (es, r) => some (e :: es, r)

/-- The files in an archive, names and contents in the order of the directory; `none` if it is not a ZIP
archive.  The archive has no comment, consists of one part and does not use the extensions for large files. -/
def unzip (inflate : Bytes → Option Bytes) (f : Bytes) : Option (List (Bytes × Bytes)) :=
  let e := f.drop (f.length - 22)
  if part e 0 4 = [0x50, 0x4b, 5, 6] ∧ field e 4 2 = 0 ∧ field e 6 2 = 0 ∧ field e 8 2 = field e 10 2 ∧
    field e 20 2 = 0 ∧ field e 16 4 + field e 12 4 + 22 = f.length
  then
    match unzipDir inflate f (field e 10 2) (f.drop (field e 16 4)) with
    | some (es, r) => if r = e then some es else none
    | none => none
  else none

end Semla.Spec
