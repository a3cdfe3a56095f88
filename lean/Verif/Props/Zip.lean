import Verif.Lemmas.MinizOk

/-!
# C87 A package made on Windows is a ZIP archive of its files
-/

namespace Semla.Props
open Semla Spec

/-- C87.  If every call that adds a file reports success, the archive is a ZIP archive that holds exactly the
files, under their names, in the order of the calls, with their contents: a reader that checks every size and
check sum gets them.  This is for any outcomes of reading, writing and allocating.

Missing: the compressor, which is a parameter; archives of 2 GiB and more (`c87_two_gigabytes_not`). -/
theorem c87_archive_partial (inflate : Bytes → Option Bytes) (deflate : Bytes → List Bytes)
    (hc : Restores inflate deflate) (files : List (ZipIo × Bytes × Bytes)) (hne : files ≠ [])
    (hst : ∀ x ∈ files, StatSmall x.1) (hs : archiveRoom deflate files < 2 ^ 31) (r : Option Bytes)
    (h : addFiles deflate files none = (r, true)) :
    ∃ f, r = some f ∧ f.length = archiveRoom deflate files ∧ unzip inflate f = some (files.map fun x => x.2) := by
  have hz : zipLen b!"Modelica_archive" [] = 22 := by simp [zipLen, bodyOf, dirFrom]
  obtain ⟨h1, h2⟩ := addFiles_zip (deflate := deflate) files [] r fits_nil hst (by rw [hz]; unfold archiveRoom at hs; omega)
    (by simpa [archiveOf] using h)
  rw [List.nil_append] at h1 h2
  have hne' : files.map (fun x => entryOf deflate x.1 x.2.1 x.2.2) ≠ [] := by simpa using hne
  have hlen : ∀ (fs : List (ZipIo × Bytes × Bytes)) (es : List ZEntry), zipLen b!"Modelica_archive"
      (es ++ fs.map fun x => entryOf deflate x.1 x.2.1 x.2.2) = zipLen b!"Modelica_archive" es +
      (fs.map fun x => roomFor deflate x.2.1 x.2.2).sum := by
    intro fs
    induction fs with
    | nil => intro es; simp
    | cons x fs ih =>
      intro es
      have := ih (es ++ [entryOf deflate x.1 x.2.1 x.2.2])
      rw [zipLen_append, List.append_assoc] at this
      simp only [List.map_cons, List.sum_cons]
      rw [← Nat.add_assoc, ← this]
      simp
  refine ⟨zipOf b!"Modelica_archive" (files.map fun x => entryOf deflate x.1 x.2.1 x.2.2), ?_, ?_, ?_⟩
  · rw [h1, archiveOf, if_neg hne']
  · have := hlen files []
    rw [hz, List.nil_append] at this
    rw [zipOf_length, archiveRoom]
    unfold zipLen at this
    omega
  · rw [unzip_zipOf h2 (by
      intro e he
      obtain ⟨x, -, rfl⟩ := List.mem_map.1 he
      exact entry_good hc _ _ _)]
    simp [entryOf]

/-- C87.  Fewer than 19280 files whose archive is smaller than 80 MB do get into the archive, if the system
does what it is asked for and the names are those of files below a directory, of at most 65535 bytes.

Missing: larger archives, of which a few are refused (`c87_signature_not`). -/
theorem c87_accepts_partial (inflate : Bytes → Option Bytes) (deflate : Bytes → List Bytes)
    (hc : Restores inflate deflate) (hi : inflate [] = none) (files : List (ZipIo × Bytes × Bytes))
    (hw : ∀ x ∈ files, StatSmall x.1 ∧ AllWell x.1)
    (hn : ∀ x ∈ files, ArchiveName x.2.1 ∧ x.2.2.length < 2 ^ 32 - 1)
    (hcount : files.length < 19280) (hs : archiveRoom deflate files < 80000000) :
    (addFiles deflate files none).2 = true := by
  have hz : zipLen b!"Modelica_archive" [] = 22 := by simp [zipLen, bodyOf, dirFrom]
  obtain ⟨r, h⟩ := addFiles_ok hc hi files [] fits_nil (by simp) hw hn (by simpa using hcount)
    (by rw [hz]; unfold archiveRoom at hs; omega)
  rw [show archiveOf b!"Modelica_archive" [] = none by simp [archiveOf]] at h
  rw [h]

/-! ## Cases -/

/-- A system on which everything works and `_stat` fails for 2 GiB and more. -/
def wellIo : ZipIo :=
  ⟨fun n => decide (n < 2 ^ 31), true, true, true, true, true, true, true, fun _ => true, fun _ => none, true,
    id, true, 0x6a3b, 0x5d70⟩

theorem wellIo_well : AllWell wellIo ∧ StatSmall wellIo :=
  ⟨⟨⟨rfl, rfl, rfl, rfl⟩, ⟨rfl, rfl, rfl⟩, fun _ => rfl, fun _ => rfl, rfl⟩, fun n hn => by simpa [wellIo] using hn⟩

/-- A compressor that does not compress, but hands over pieces. -/
def toyDeflate (d : Bytes) : List Bytes := [d.take 5, d.drop 5]

/-- Its inverse. -/
def toyInflate (d : Bytes) : Option Bytes := if d = [] then none else some d

theorem toy_restores : Restores toyInflate toyDeflate := by
  intro d hd
  have : d ≠ [] := by intro h; simp [h] at hd
  simp [toyDeflate, toyInflate, this]

/-- Three files: compressed, empty, stored. -/
def toyFiles : List (ZipIo × Bytes × Bytes) :=
  [(wellIo, b!"Lib/package.moc", b!"within ; end Lib;"), (wellIo, b!"Lib/empty.txt", []), (wellIo, b!"a", b!"xyz")]

example : archiveRoom toyDeflate toyFiles < 80000000 ∧ (∀ x ∈ toyFiles, ArchiveName x.2.1) := by
  refine ⟨by decide +kernel, ?_⟩
  intro x hx
  have hfin : ∀ n : Bytes, n.length ≤ 65535 → 92 ∉ n → 58 ∉ n → n.head? ≠ some 47 → n.getLast? ≠ some 47 →
      ArchiveName n := by
    refine fun n a b c d e => ⟨a, b, c, fun r h => d (by rw [h]; rfl), fun r h => e (by rw [h]; simp)⟩
  simp only [toyFiles, List.mem_cons, List.not_mem_nil, or_false] at hx
  rcases hx with rfl | rfl | rfl <;> exact hfin _ (by decide) (by decide) (by decide) (by decide) (by decide)

example : (addFiles toyDeflate toyFiles none).2 = true := by decide +kernel

example : (addFiles toyDeflate toyFiles none).1.bind (unzip toyInflate) =
    some [(b!"Lib/package.moc", b!"within ; end Lib;"), (b!"Lib/empty.txt", []), (b!"a", b!"xyz")] := by
  decide +kernel

/-! ## Where it does not hold -/

/-- C87, the other side.  When the archive has reached 2 GiB and `_stat` therefore fails, the next call takes it
for missing: all calls report success, and the archive has only the files since. -/
theorem c87_two_gigabytes_not : ∃ data : Bytes, ∃ f,
    addFiles toyDeflate [(wellIo, b!"a", data), (wellIo, b!"b", b!"xyz")] none = (some f, true) ∧
      unzip toyInflate f = some [(b!"b", b!"xyz")] := by
  obtain ⟨data, hd⟩ : ∃ d : Bytes, d.length = 2 ^ 31 := ⟨List.replicate (2 ^ 31) 0, List.length_replicate⟩
  refine ⟨data, ?_⟩
  have hpk : (packed toyDeflate data).length = 2 ^ 31 := by
    rw [packed_length, if_neg (by omega)]
    simp [toyDeflate, hd]
  have hnil : archiveOf b!"Modelica_archive" [] = none := by simp [archiveOf]
  obtain ⟨r1, h1⟩ := addInPlace_ok (deflate := toyDeflate) (comment := b!"Modelica_archive") (name := b!"a")
    (data := data) (es := []) wellIo_well.1 fits_nil (by simp) (by simp) (by simp [hnil]) (by omega) (by decide)
    (by decide) (fun h => by simp at h) (by rw [hpk]; simp [bodyOf, dirFrom])
  obtain ⟨g1, g2⟩ := addInPlace_zip fits_nil (by simp [hnil]) h1
  obtain ⟨r2, h2⟩ := addInPlace_ok (deflate := toyDeflate) (comment := b!"Modelica_archive") (name := b!"b")
    (data := b!"xyz") (es := []) wellIo_well.1 fits_nil (by simp) (by simp) (by simp [hnil]) (by decide) (by decide)
    (by decide) (by decide) (by decide)
  obtain ⟨k1, k2⟩ := addInPlace_zip fits_nil (by simp [hnil]) h2
  rw [hnil] at h1 h2
  rw [List.nil_append] at g1 g2 k1 k2
  have hbig : ∀ f, r1 = some f → wellIo.stat f.length = false := by
    intro f hf
    rw [g1] at hf
    have := archiveOf_length hf
    have h3 := zipLen_append toyDeflate wellIo b!"a" data []
    rw [List.nil_append] at h3
    have h4 := entry_room toyDeflate wellIo b!"a" data 0
    rw [record_length] at h4
    simp only [entryOf] at h4
    simp only [wellIo, decide_eq_false_iff_not]
    omega
  have hsame : addInPlace toyDeflate wellIo r1 b!"b" b!"xyz" b!"Modelica_archive" = (r2, true) := by
    rw [← h2]
    have hr1 : r1 = some (zipOf b!"Modelica_archive" [entryOf toyDeflate wellIo b!"a" data]) := by
      rw [g1]; simp [archiveOf]
    have hst := hbig _ hr1
    rw [hr1]
    have hok : zipNameOk b!"b" = true := by decide
    have hopen : (!wellIo.state ∨ !wellIo.opens) ↔ False := by decide
    have hz : (zAddFinish toyDeflate wellIo ⟨[], [], 0, 0, 0⟩ b!"b" b!"xyz" b!"Modelica_archive").2 = true := by
      decide +kernel
    unfold addInPlace
    simp only [hok, Bool.not_true, Bool.false_eq_true, if_false, Option.filter_some, hst, Option.filter_none, hopen, hz,
      if_true]
  refine ⟨zipOf b!"Modelica_archive" [entryOf toyDeflate wellIo b!"b" b!"xyz"], ?_, ?_⟩
  · rw [addFiles, h1]
    dsimp only
    rw [addFiles, hsame, k1]
    simp [addFiles, archiveOf]
  · rw [unzip_zipOf k2 (by
      intro e he
      rw [List.mem_singleton.1 he]
      exact entry_good toy_restores _ _ _)]
    simp [entryOf]

/-- C87, the other side.  When the directory of the archive begins at 0x06054b50, the four bytes of this offset
are taken for the beginning of the end record: the next file is refused, although there is nothing wrong with
the archive. -/
theorem c87_signature_not : ∃ data : Bytes, ∃ f, addFiles toyDeflate [(wellIo, b!"a", data)] none = (some f, true) ∧
    unzip toyInflate f = some [(b!"a", data)] ∧
    ∀ io, io.stat f.length = true → ∀ name content,
      (addFiles toyDeflate [(io, name, content)] (some f)) = (some f, false) := by
  obtain ⟨data, hd⟩ : ∃ d : Bytes, d.length = 101010225 := ⟨List.replicate 101010225 0, List.length_replicate⟩
  refine ⟨data, ?_⟩
  have hpk : (packed toyDeflate data).length = 101010225 := by
    rw [packed_length, if_neg (by omega)]
    simp [toyDeflate, hd]
  have hnil : archiveOf b!"Modelica_archive" [] = none := by simp [archiveOf]
  obtain ⟨r1, h1⟩ := addInPlace_ok (deflate := toyDeflate) (comment := b!"Modelica_archive") (name := b!"a")
    (data := data) (es := []) wellIo_well.1 fits_nil (by simp) (by simp) (by simp [hnil]) (by omega) (by decide)
    (by decide) (fun h => by simp at h) (by rw [hpk]; simp [bodyOf, dirFrom])
  obtain ⟨g1, g2⟩ := addInPlace_zip fits_nil (by simp [hnil]) h1
  rw [hnil] at h1
  rw [List.nil_append] at g1 g2
  generalize hes : [entryOf toyDeflate wellIo b!"a" data] = es at g1 g2
  have hb : (bodyOf es).length = 0x06054b50 := by
    rw [← hes]
    simp only [bodyOf, List.flatMap_cons, List.flatMap_nil, List.append_nil, record_length]
    simp only [entryOf]
    rw [hpk]
    decide
  have hne : es ≠ [] := by rw [← hes]; simp
  refine ⟨zipOf b!"Modelica_archive" es, ?_, ?_, ?_⟩
  · rw [addFiles, h1, g1]
    simp [addFiles, archiveOf, hne]
  · rw [unzip_zipOf g2 (by
      intro e he
      rw [← hes] at he
      rw [List.mem_singleton.1 he]
      exact entry_good toy_restores _ _ _), ← hes]
    simp [entryOf]
  · intro io hio name content
    have hl := zipOf_length b!"Modelica_archive" es
    have hsig : rd32 (zipOf b!"Modelica_archive" es) ((bodyOf es ++ dirFrom b!"Modelica_archive" 0 es).length + 16) =
        0x06054b50 := by
      rw [← rd32_drop, zipOf, List.drop_left, hb]
      simp only [endRecord, le16, le32, rd32, rd16, List.cons_append, List.nil_append, List.getD_cons_succ,
        List.getD_cons_zero, toNat_ofNat8]
    have hread : readDir io (zipOf b!"Modelica_archive" es) = none := by
      unfold readDir
      split
      · rfl
      split
      · rfl
      · rename_i ofs k hfe
        have hofs : (bodyOf es ++ dirFrom b!"Modelica_archive" 0 es).length + 16 ≤ ofs := by
          generalize hcur : (zipOf b!"Modelica_archive" es).length - 4096 = cur at hfe
          obtain ⟨n, hn⟩ : ∃ n, n = min 4096 ((zipOf b!"Modelica_archive" es).length - cur) := ⟨_, rfl⟩
          refine (findEnd_first hn hsig ?_ ?_ ?_ hfe).1
          · rw [List.length_append]; omega
          · rw [List.length_append]; omega
          · omega
        dsimp only
        rw [List.length_append] at hofs
        rw [if_pos (by right; rw [List.length_take, List.length_drop]; omega)]
    have hopen : openZip io (zipOf b!"Modelica_archive" es) = none := by
      unfold openZip
      rw [hread]
      split <;> rfl
    rw [addFiles]
    unfold addInPlace
    split
    · rename_i new h
      split at h
      · simp at h; rw [h]
      · simp only [Option.filter_some, hio, if_true, hopen, Prod.mk.injEq, and_true] at h
        rw [h]
    · rename_i new h
      split at h
      · simp at h
      · simp only [Option.filter_some, hio, if_true, hopen, Prod.mk.injEq, Bool.false_eq_true, and_false] at h

/-- A system whose disk becomes full at the `k`-th write. -/
def fullIo (k : Nat) : ZipIo := { wellIo with write := fun n => if n < k then none else some 0 }

/-- C87, the other side.  The disk becomes full while a second file is added: the archive, which was one, is
none afterwards.  The call reports the failure. -/
theorem c87_damage_not : ∃ f g, addFiles toyDeflate [(wellIo, b!"a", b!"within ; end Lib;")] none = (some f, true) ∧
    (unzip toyInflate f).isSome ∧
    addFiles toyDeflate [(fullIo 1, b!"b", b!"xyz")] (some f) = (some g, false) ∧ unzip toyInflate g = none := by
  refine ⟨(addFiles toyDeflate [(wellIo, b!"a", b!"within ; end Lib;")] none).1.getD [],
    ((addFiles toyDeflate [(fullIo 1, b!"b", b!"xyz")]
      (addFiles toyDeflate [(wellIo, b!"a", b!"within ; end Lib;")] none).1).1).getD [], ?_, ?_, ?_, ?_⟩ <;>
    decide +kernel

end Semla.Props
