import Verif.Basic

/-!
# Adding a file to a ZIP archive on Windows

`mz_zip_add_mem_to_archive_file_in_place` of `ThirdParty/miniz/miniz.c`, which `zipDirectoryWin32` calls for
every file of a package (utils.c:1475-1478), and all that it calls for `level_and_flags` =
`MZ_BEST_COMPRESSION`: reading the directory of an archive that exists, adding an entry, writing the directory.

The compressor (`tdefl_compress_buffer`) is a parameter, `deflate`: the pieces it hands to
`mz_zip_writer_add_put_buf_callback`.  What the system answers is `ZipIo`.  `size_t` has 64 bits.  Offsets and
sizes are natural numbers; the code computes them with 64 bits and compares them with `0xFFFFFFFF`.
The archive is not aligned (`m_file_offset_alignment` is 0), central directory entries are not sorted.
Pointers are not null; blocks of memory are not modelled but for whether they are granted.
-/

namespace Semla

/-- `mz_write_le16`, miniz.c:3970. -/
def le16 (n : Nat) : Bytes := [UInt8.ofNat n, UInt8.ofNat (n / 256)]

/-- `mz_write_le32`, miniz.c:3971. -/
def le32 (n : Nat) : Bytes :=
  [UInt8.ofNat n, UInt8.ofNat (n / 256), UInt8.ofNat (n / 65536), UInt8.ofNat (n / 16777216)]

/-- `MZ_READ_LE16(p + i)`, miniz.c:961.  The code reads within `p`. -/
def rd16 (p : Bytes) (i : Nat) : Nat := (p.getD i 0).toNat + 256 * (p.getD (i + 1) 0).toNat

/-- `MZ_READ_LE32(p + i)`, miniz.c:962.  The code reads within `p`. -/
def rd32 (p : Bytes) (i : Nat) : Nat := rd16 p i + 65536 * rd16 p (i + 2)

/-- `s_crc32`, miniz.c:997-998. -/
def crcTable : List UInt32 :=
  [0, 0x1db71064, 0x3b6e20c8, 0x26d930ac, 0x76dc4190, 0x6b6b51f4, 0x4db26158, 0x5005713c,
   0xedb88320, 0xf00f9344, 0xd6d6a3e8, 0xcb61b38c, 0x9b64c2b0, 0x86d3d2d4, 0xa00ae278, 0xbdbdf21c]

/-- One half of the loop of `mz_crc32`, miniz.c:1001, for four bits `b`. -/
def crcHalf (crc b : UInt32) : UInt32 := (crc >>> 4) ^^^ crcTable.getD ((crc &&& 0xF) ^^^ b).toNat 0

/-- The loop of `mz_crc32` for one byte. -/
def crcStep (crc : UInt32) (b : UInt8) : UInt32 :=
  crcHalf (crcHalf crc (b &&& 0xF).toUInt32) (b >>> 4).toUInt32

/-- `mz_crc32(MZ_CRC32_INIT, data, size)`, miniz.c:995-1003. -/
def mzCrc32 (data : Bytes) : UInt32 := ~~~ (data.foldl crcStep (~~~ 0))

/-- What the system answers during one call. -/
structure ZipIo where
  /-- `_stat` of an archive that exists and has this size succeeds. -/
  stat : Nat → Bool
  /-- There is memory for the state, the directory read, the directory enlarged, the compressor. -/
  state : Bool
  dirs : Bool
  room : Bool
  comp : Bool
  /-- `fopen`, `fseek` to the end, `freopen`. -/
  opens : Bool
  seek : Bool
  reopens : Bool
  /-- The `k`-th `fread` delivers all it is asked for, if the file has it. -/
  read : Nat → Bool
  /-- How many bytes the `k`-th `fwrite` writes at most; `none`: all. -/
  write : Nat → Option Nat
  /-- `fflush`, and what is on the disk of a file if it fails. -/
  flush : Bool
  disk : Bytes → Bytes
  /-- `remove` of an archive that was begun. -/
  removes : Bool
  /-- Time and date. -/
  time : Nat
  date : Nat

/-- An archive being written: the file, `m_central_dir`, `m_total_files`, `m_archive_size`, and the number of
calls of `fwrite`. -/
structure ZipW where
  file : Bytes
  dir : Bytes
  total : Nat
  size : Nat
  writes : Nat

/-- A file after bytes were written at an offset. -/
def putAt (f : Bytes) (ofs : Nat) (b : Bytes) : Bytes :=
  f.take ofs ++ List.replicate (ofs - f.length) 0 ++ b ++ f.drop (ofs + b.length)

/-- How many bytes the next `fwrite` writes. -/
def zWritten (io : ZipIo) (w : ZipW) (b : Bytes) : Nat :=
  match io.write w.writes with
  | none => b.length
  | some k => min k b.length

/-- `mz_zip_file_write_func`, miniz.c:4047-4054, and whether it wrote everything. -/
def zWrite (io : ZipIo) (w : ZipW) (ofs : Nat) (b : Bytes) : ZipW × Bool :=
  let n := zWritten io w b
  ({ w with file := if n = 0 then w.file else putAt w.file ofs (b.take n), writes := w.writes + 1 },
    n == b.length)

/-- `mz_zip_writer_create_local_dir_header`, miniz.c:4159-4175, with `extra_size` and `bit_flags` 0. -/
def localHeader (nameLen size comp crc method time date : Nat) : Bytes :=
  le32 0x04034b50 ++ le16 (if method ≠ 0 then 20 else 0) ++ le16 0 ++ le16 method ++ le16 time ++ le16 date ++
    le32 crc ++ le32 comp ++ le32 size ++ le16 nameLen ++ le16 0

/-- `mz_zip_writer_create_central_dir_header`, miniz.c:4177-4196, with `extra_size` and `bit_flags` 0. -/
def centralHeader (nameLen commentLen size comp crc method time date ofs attr : Nat) : Bytes :=
  le32 0x02014b50 ++ le16 0 ++ le16 (if method ≠ 0 then 20 else 0) ++ le16 0 ++ le16 method ++ le16 time ++
    le16 date ++ le32 crc ++ le32 comp ++ le32 size ++ le16 nameLen ++ le16 0 ++ le16 commentLen ++ le16 0 ++
    le16 0 ++ le32 attr ++ le32 ofs

/-- `mz_zip_writer_validate_archive_name`, miniz.c:4226-4238. -/
def zipNameOk (name : Bytes) : Bool := name.head? ≠ some 47 && name.all fun c => c ≠ 92 && c ≠ 58

/-- `tdefl_compress_buffer` calling `mz_zip_writer_add_put_buf_callback`, miniz.c:4149-4157, with each piece:
`m_cur_archive_file_ofs` and `m_comp_size` afterwards, or `none` if a piece could not be written. -/
def zPieces (io : ZipIo) : ZipW → Nat → Nat → List Bytes → ZipW × Option (Nat × Nat)
  | w, ofs, comp, [] => (w, some (ofs, comp))
  | w, ofs, comp, p :: ps =>
    match zWrite io w ofs p with
    | (w, false) => (w, none)
    | (w, true) => zPieces io w (ofs + p.length) (comp + p.length) ps

/-- The part of `mz_zip_writer_add_mem_ex` that writes the data, miniz.c:4335-4379: offset afterwards,
`comp_size` and `method`. -/
def zData (deflate : Bytes → List Bytes) (io : ZipIo) (w : ZipW) (ofs : Nat) (data : Bytes) :
    ZipW × Option (Nat × Nat × Nat) :=
  if data.length ≤ 3 then
    match zWrite io w ofs data with
    | (w, false) => (w, none)
    | (w, true) => (w, some (ofs + data.length, data.length, 0))
  else
    match zPieces io w ofs 0 (deflate data) with
    | (w, none) => (w, none)
    | (w, some (ofs, comp)) => (w, some (ofs, comp, 8))

/-- `ext_attributes`, miniz.c:4309-4316. -/
def zipAttr (name : Bytes) : Nat := if name.getLast? = some 47 then 16 else 0

/-- `mz_zip_writer_add_to_central_dir`, miniz.c:4198-4224, and the end of `mz_zip_writer_add_mem_ex`,
miniz.c:4397-4401.  There is room (`mz_zip_array_ensure_room`). -/
def zEnter (io : ZipIo) (w : ZipW) (name comment data : Bytes) (ofs next comp method : Nat) : ZipW × Bool :=
  if ofs > 0xFFFFFFFF ∨ w.dir.length + 46 + name.length + comment.length > 0xFFFFFFFF then (w, false)
  else
    let header := centralHeader name.length comment.length data.length comp (mzCrc32 data).toNat method
      io.time io.date ofs (zipAttr name)
    ({ w with dir := w.dir ++ header ++ name ++ comment, total := w.total + 1, size := next }, true)

/-- `mz_zip_writer_add_mem_ex`, miniz.c:4263-4404. -/
def zAdd (deflate : Bytes → List Bytes) (io : ZipIo) (w : ZipW) (name data comment : Bytes) : ZipW × Bool :=
  if w.total = 0xFFFF then (w, false)
  else if data.length > 0xFFFFFFFF then (w, false)
  else if !zipNameOk name then (w, false)
  else if name.length > 0xFFFF then (w, false)
  else if w.size + 30 + 46 + comment.length + name.length > 0xFFFFFFFF then (w, false)
  else if name.getLast? = some 47 ∧ data ≠ [] then (w, false)
  else if !io.room then (w, false)
  else if data ≠ [] ∧ !io.comp then (w, false)
  else
    let ofs := w.size
    match zWrite io w ofs (List.replicate 30 0) with
    | (w, false) => (w, false)
    | (w, true) =>
      match zWrite io w (ofs + 30) name with
      | (w, false) => (w, false)
      | (w, true) =>
        match zData deflate io w (ofs + 30 + name.length) data with
        | (w, none) => (w, false)
        | (w, some (next, comp, method)) =>
          if comp > 0xFFFFFFFF ∨ next > 0xFFFFFFFF then (w, false)
          else
            match zWrite io w ofs (localHeader name.length data.length comp (mzCrc32 data).toNat method
                io.time io.date) with
            | (w, false) => (w, false)
            | (w, true) => zEnter io w name comment data ofs next comp method

/-- The record at the end of an archive, miniz.c:4743-4749. -/
def endRecord (total dirSize dirOfs : Nat) : Bytes :=
  le32 0x06054b50 ++ le16 0 ++ le16 0 ++ le16 total ++ le16 total ++ le32 dirSize ++ le32 dirOfs ++ le16 0

/-- The end of `mz_zip_writer_finalize_archive`, miniz.c:4742-4757. -/
def zFinishEnd (io : ZipIo) (w : ZipW) (dirSize dirOfs : Nat) : ZipW × Bool :=
  match zWrite io w w.size (endRecord w.total dirSize dirOfs) with
  | (w, false) => (w, false)
  | (w, true) => if io.flush then (w, true) else ({ w with file := io.disk w.file }, false)

/-- `mz_zip_writer_finalize_archive`, miniz.c:4715-4762. -/
def zFinish (io : ZipIo) (w : ZipW) : ZipW × Bool :=
  if w.total > 0xFFFF ∨ w.size + w.dir.length + 22 > 0xFFFFFFFF then (w, false)
  else if w.total ≠ 0 then
    match zWrite io w w.size w.dir with
    | (w', false) => (w', false)
    | (w', true) => zFinishEnd io { w' with size := w.size + w.dir.length } w.dir.length w.size
  else zFinishEnd io w 0 0

/-- The loop miniz.c:3188-3190: the last `i` not above the argument with the signature at `i`. -/
def lastSig (buf : Bytes) : Nat → Option Nat
  | 0 => if rd32 buf 0 = 0x06054b50 then some 0 else none
  | i + 1 => if rd32 buf (i + 1) = 0x06054b50 then some (i + 1) else lastSig buf i

/-- The search for the end of the directory, miniz.c:3182-3199: its offset and the number of calls of `fread`.
At offsets below 4093, `cur_file_ofs - (sizeof(buf_u32) - 3)` wraps around and the next `m_pRead` fails. -/
def findEnd (io : ZipIo) (f : Bytes) : Nat → Nat → Nat → Option (Nat × Nat)
  | 0, _, _ => none
  | fuel + 1, cur, k =>
    let n := min 4096 (f.length - cur)
    if !io.read k then none
    else
      match if n < 4 then none else lastSig ((f.drop cur).take n) (n - 4) with
      | some i => some (cur + i, k + 1)
      | none =>
        if cur = 0 ∨ f.length - cur ≥ 0xFFFF + 22 then none
        else if cur < 4093 then none
        else findEnd io f fuel (cur - 4093) (k + 1)

/-- The loop over the entries of the directory, miniz.c:3241-3262; `size` is that of the archive. -/
def checkDir (size disk : Nat) : Nat → Bytes → Bool
  | 0, _ => true
  | k + 1, p =>
    if p.length < 46 ∨ rd32 p 0 ≠ 0x02014b50 then false
    else
      let comp := rd32 p 20
      let decomp := rd32 p 24
      if (rd32 p 10 = 0 ∧ decomp ≠ comp) ∨ (decomp ≠ 0 ∧ comp = 0) ∨ decomp = 0xFFFFFFFF ∨ comp = 0xFFFFFFFF then false
      else if rd16 p 34 ≠ disk ∧ rd16 p 34 ≠ 1 then false
      else if rd32 p 42 + 30 + comp > size then false
      else
        let t := 46 + rd16 p 28 + rd16 p 30 + rd16 p 32
        if t > p.length then false else checkDir size disk k (p.drop t)

/-- `mz_zip_reader_read_central_dir`, miniz.c:3170-3268: the directory, the number of entries and
`m_central_directory_file_ofs`. -/
def readDir (io : ZipIo) (f : Bytes) : Option (Bytes × Nat × Nat) :=
  if f.length < 22 then none
  else
    match findEnd io f (f.length + 1) (f.length - 4096) 0 with
    | none => none
    | some (ofs, k) =>
      let e := (f.drop ofs).take 22
      if !io.read k ∨ e.length < 22 then none
      else if rd32 e 0 ≠ 0x06054b50 ∨ rd16 e 10 ≠ rd16 e 8 then none
      else
        let total := rd16 e 10
        let disk := rd16 e 4
        let dirDisk := rd16 e 6
        if (disk ≠ 0 ∨ dirDisk ≠ 0) ∧ (disk ≠ 1 ∨ dirDisk ≠ 1) then none
        else
          let size := rd32 e 12
          let dirOfs := rd32 e 16
          if size < total * 46 then none
          else if dirOfs + size > f.length then none
          else if total = 0 then some ([], 0, dirOfs)
          else if !io.dirs then none
          else if !io.read (k + 1) then none
          else
            let dir := (f.drop dirOfs).take size
            if checkDir f.length disk total dir then some (dir, total, dirOfs) else none

/-- `mz_zip_reader_init_file`, miniz.c:3324-3351, and `mz_zip_writer_init_from_reader`, miniz.c:4087-4135. -/
def openZip (io : ZipIo) (f : Bytes) : Option ZipW :=
  if !io.opens ∨ !io.seek ∨ !io.state then none
  else
    match readDir io f with
    | none => none
    | some (dir, total, dirOfs) =>
      if total = 0xFFFF ∨ f.length + 46 + 30 > 0xFFFFFFFF then none
      else if !io.reopens then none
      else some ⟨f, dir, total, dirOfs, 0⟩

/-- Adding and finishing, miniz.c:4843-4848. -/
def zAddFinish (deflate : Bytes → List Bytes) (io : ZipIo) (w : ZipW) (name data comment : Bytes) : ZipW × Bool :=
  let r := zAdd deflate io w name data comment
  let r' := zFinish io r.1
  (r'.1, r.2 && r'.2)

/-- `mz_zip_add_mem_to_archive_file_in_place`, miniz.c:4813-4856: the archive afterwards, if there is one, and
the return value. -/
def addInPlace (deflate : Bytes → List Bytes) (io : ZipIo) (old : Option Bytes) (name data comment : Bytes) :
    Option Bytes × Bool :=
  if !zipNameOk name then (old, false)
  else
    match old.filter fun f => io.stat f.length with
    | none =>
      if !io.state ∨ !io.opens then (old, false)
      else
        let r := zAddFinish deflate io ⟨[], [], 0, 0, 0⟩ name data comment
        if r.2 then (some r.1.file, true) else (if io.removes then none else some r.1.file, false)
    | some f =>
      match openZip io f with
      | none => (old, false)
      | some w =>
        let r := zAddFinish deflate io w name data comment
        (some r.1.file, r.2)

/-- The calls of `zipDirectoryWin32` for the files of a package, utils.c:1475-1486, up to the first that
fails: the archive afterwards and whether all succeeded. -/
def addFiles (deflate : Bytes → List Bytes) : List (ZipIo × Bytes × Bytes) → Option Bytes → Option Bytes × Bool
  | [], old => (old, true)
  | (io, name, data) :: rest, old =>
    match addInPlace deflate io old name data b!"Modelica_archive" with
    | (new, false) => (new, false)
    | (new, true) => addFiles deflate rest new

end Semla
