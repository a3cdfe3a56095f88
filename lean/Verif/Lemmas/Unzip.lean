import Verif.Lemmas.Miniz

/-! Reading the archive that `addInPlace` builds with the reader of `Spec/Zip`. -/

namespace Semla
open Spec

theorem number_two (n : Nat) (h : n ≤ 65535) : number (le16 n) = n := by
  simp only [le16, number, toNat_ofNat8]; omega

theorem number_four (n : Nat) (h : n ≤ 0xFFFFFFFF) : number (le32 n) = n := by
  simp only [le32, number, toNat_ofNat8]; omega

theorem part_skip (a b : Bytes) (i n : Nat) : part (a ++ b) (a.length + i) n = part b i n := by
  unfold part
  rw [List.drop_length_add_append]

theorem part_here (a b : Bytes) : part (a ++ b) 0 a.length = a := by
  simp [part]

/-- The parts of a header in the directory. -/
theorem central_parts (nl cl size comp crc method time date ofs attr : Nat) (r : Bytes) :
    part (centralHeader nl cl size comp crc method time date ofs attr ++ r) 0 4 = [0x50, 0x4b, 1, 2] ∧
    part (centralHeader nl cl size comp crc method time date ofs attr ++ r) 8 2 = le16 0 ∧
    part (centralHeader nl cl size comp crc method time date ofs attr ++ r) 10 2 = le16 method ∧
    part (centralHeader nl cl size comp crc method time date ofs attr ++ r) 16 12 = le32 crc ++ le32 comp ++ le32 size ∧
    part (centralHeader nl cl size comp crc method time date ofs attr ++ r) 16 4 = le32 crc ∧
    part (centralHeader nl cl size comp crc method time date ofs attr ++ r) 20 4 = le32 comp ∧
    part (centralHeader nl cl size comp crc method time date ofs attr ++ r) 24 4 = le32 size ∧
    part (centralHeader nl cl size comp crc method time date ofs attr ++ r) 28 2 = le16 nl ∧
    part (centralHeader nl cl size comp crc method time date ofs attr ++ r) 30 2 = le16 0 ∧
    part (centralHeader nl cl size comp crc method time date ofs attr ++ r) 32 2 = le16 cl ∧
    part (centralHeader nl cl size comp crc method time date ofs attr ++ r) 42 4 = le32 ofs := by
  simp only [part, centralHeader, le16, le32, List.cons_append, List.nil_append, List.drop_succ_cons,
    List.take_succ_cons, List.take_zero, List.drop_zero]
  decide

theorem local_parts (nl size comp crc method time date : Nat) (r : Bytes) :
    part (localHeader nl size comp crc method time date ++ r) 0 4 = [0x50, 0x4b, 3, 4] ∧
    part (localHeader nl size comp crc method time date ++ r) 6 2 = le16 0 ∧
    part (localHeader nl size comp crc method time date ++ r) 8 2 = le16 method ∧
    part (localHeader nl size comp crc method time date ++ r) 14 12 = le32 crc ++ le32 comp ++ le32 size ∧
    part (localHeader nl size comp crc method time date ++ r) 26 2 = le16 nl ∧
    part (localHeader nl size comp crc method time date ++ r) 28 2 = le16 0 := by
  simp only [part, localHeader, le16, le32, List.cons_append, List.nil_append, List.drop_succ_cons,
    List.take_succ_cons, List.take_zero, List.drop_zero]
  decide

theorem end_parts (a b c : Nat) :
    part (endRecord a b c) 0 4 = [0x50, 0x4b, 5, 6] ∧ part (endRecord a b c) 4 2 = le16 0 ∧
    part (endRecord a b c) 6 2 = le16 0 ∧ part (endRecord a b c) 8 2 = le16 a ∧
    part (endRecord a b c) 10 2 = le16 a ∧ part (endRecord a b c) 12 4 = le32 b ∧
    part (endRecord a b c) 16 4 = le32 c ∧ part (endRecord a b c) 20 2 = le16 0 := by
  simp only [part, endRecord, le16, le32, List.cons_append, List.nil_append, List.drop_succ_cons,
    List.take_succ_cons, List.take_zero, List.drop_zero]
  decide

/-- The stored bytes give the contents. -/
def ZEntry.Good (inflate : Bytes → Option Bytes) (e : ZEntry) : Prop :=
  (e.method = 0 ∧ e.comp = e.data) ∨ (e.method = 8 ∧ inflate e.comp = some e.data)

theorem unzipFile_entry {inflate : Bytes → Option Bytes} {f comment r r' : Bytes} {e : ZEntry} {ofs : Nat}
    (hg : e.Good inflate) (hn : e.name.length ≤ 65535) (hd : e.data.length ≤ 0xFFFFFFFF)
    (hc : e.comp.length ≤ 0xFFFFFFFF) (ho : ofs ≤ 0xFFFFFFFF) (hf : f.drop ofs = e.record ++ r') :
    unzipFile inflate f (e.central comment ofs ++ r) = some (e.name, e.data) := by
  have hcrc : (mzCrc32 e.data).toNat ≤ 0xFFFFFFFF := by have := (mzCrc32 e.data).toNat_lt; omega
  have hm : e.method ≤ 65535 := by rcases hg with h | h <;> rw [h.1] <;> omega
  obtain ⟨c0, c8, c10, c16', c16, c20, c24, c28, c30, c32, c42⟩ := central_parts e.name.length comment.length
    e.data.length e.comp.length (mzCrc32 e.data).toNat e.method e.time e.date ofs (zipAttr e.name)
    (e.name ++ comment ++ r)
  obtain ⟨l0, l6, l8, l14, l26, l28⟩ := local_parts e.name.length e.data.length e.comp.length
    (mzCrc32 e.data).toNat e.method e.time e.date (e.name ++ e.comp ++ r')
  have hcen : e.central comment ofs ++ r = centralHeader e.name.length comment.length
      e.data.length e.comp.length (mzCrc32 e.data).toNat e.method e.time e.date ofs (zipAttr e.name) ++
      (e.name ++ comment ++ r) := by simp [ZEntry.central]
  have hrec : e.record ++ r' = localHeader e.name.length e.data.length e.comp.length
    (mzCrc32 e.data).toNat e.method e.time e.date ++ (e.name ++ e.comp ++ r') := by
    simp [ZEntry.record, ZEntry.header]
  rw [hrec] at hf
  rw [hcen]
  have hname : ∀ (b : Bytes), part (centralHeader e.name.length comment.length
      e.data.length e.comp.length (mzCrc32 e.data).toNat e.method e.time e.date ofs (zipAttr e.name) ++
      (e.name ++ b)) 46 e.name.length = e.name := by
    intro b
    have := part_skip (centralHeader e.name.length comment.length e.data.length e.comp.length
      (mzCrc32 e.data).toNat e.method e.time e.date ofs (zipAttr e.name)) (e.name ++ b) 0 e.name.length
    rw [centralHeader_length] at this
    rw [this, part_here]
  have hlname : ∀ (b : Bytes), part (localHeader e.name.length e.data.length e.comp.length
      (mzCrc32 e.data).toNat e.method e.time e.date ++ (e.name ++ b)) 30 e.name.length = e.name := by
    intro b
    have := part_skip (localHeader e.name.length e.data.length e.comp.length (mzCrc32 e.data).toNat e.method
      e.time e.date) (e.name ++ b) 0 e.name.length
    rw [localHeader_length] at this
    rw [this, part_here]
  have hdata : part (localHeader e.name.length e.data.length e.comp.length
      (mzCrc32 e.data).toNat e.method e.time e.date ++ (e.name ++ e.comp ++ r')) (30 + e.name.length + 0)
      e.comp.length = e.comp := by
    have := part_skip (localHeader e.name.length e.data.length e.comp.length (mzCrc32 e.data).toNat e.method
      e.time e.date ++ e.name) (e.comp ++ r') 0 e.comp.length
    rw [List.length_append, localHeader_length] at this
    rw [part_here] at this
    simpa using this
  have hc1 := hname (comment ++ r)
  have hl1 := hlname (e.comp ++ r')
  rw [← List.append_assoc e.name] at hc1 hl1
  unfold unzipFile
  simp only [field, c0, c8, c10, c16', c16, c20, c24, c28, c42, number_two _ hm, number_two _ hn, number_four _ hd,
    number_four _ hc, number_four _ ho, number_four _ hcrc, hf, l0, l6, l8, l14, l26, l28, hdata, hc1, hl1,
    number_two 0 (by omega)]
  rcases hg with ⟨g1, g2⟩ | ⟨g1, g2⟩
  · simp only [g1, if_true]
    rw [g2, mzCrc32_eq]
    simp
  · simp only [g1, g2, if_true, show (8 : Nat) ≠ 0 from by omega, if_false]
    rw [mzCrc32_eq]
    simp

theorem central_next {comment r : Bytes} {e : ZEntry} {ofs : Nat} (hn : e.name.length ≤ 65535)
    (hcm : comment.length ≤ 65535) :
    (e.central comment ofs ++ r).drop (46 + field (e.central comment ofs ++ r) 28 2 +
      field (e.central comment ofs ++ r) 30 2 + field (e.central comment ofs ++ r) 32 2) = r := by
  have hcen : e.central comment ofs ++ r = centralHeader e.name.length comment.length
      e.data.length e.comp.length (mzCrc32 e.data).toNat e.method e.time e.date ofs (zipAttr e.name) ++
      (e.name ++ comment ++ r) := by simp [ZEntry.central]
  obtain ⟨-, -, -, -, -, -, -, c28, c30, c32, -⟩ := central_parts e.name.length comment.length
    e.data.length e.comp.length (mzCrc32 e.data).toNat e.method e.time e.date ofs (zipAttr e.name)
    (e.name ++ comment ++ r)
  have hl := central_length comment e ofs
  have e1 : field (e.central comment ofs ++ r) 28 2 = e.name.length := by
    rw [hcen, field, c28, number_two _ hn]
  have e2 : field (e.central comment ofs ++ r) 30 2 = 0 := by rw [hcen, field, c30, number_two _ (by omega)]
  have e3 : field (e.central comment ofs ++ r) 32 2 = comment.length := by
    rw [hcen, field, c32, number_two _ hcm]
  rw [e1, e2, e3, show 46 + e.name.length + 0 + comment.length = (e.central comment ofs).length by omega,
    List.drop_left]

theorem unzipDir_entries {inflate : Bytes → Option Bytes} {f comment r : Bytes} (hcm : comment.length ≤ 65535) :
    ∀ (es : List ZEntry) (ofs : Nat) (t : Bytes), (∀ e ∈ es, e.Good inflate) → (∀ e ∈ es, e.name.length ≤ 65535) →
      (∀ e ∈ es, e.data.length ≤ 0xFFFFFFFF) → ofs + (bodyOf es).length ≤ 0xFFFFFFFF →
      f.drop ofs = bodyOf es ++ t →
      unzipDir inflate f es.length (dirFrom comment ofs es ++ r) = some (es.map fun e => (e.name, e.data), r)
  | [], ofs, t, _, _, _, _, _ => by simp [unzipDir, dirFrom]
  | e :: es, ofs, t, hg, hn, hd, ho, hf => by
    have hb : bodyOf (e :: es) = e.record ++ bodyOf es := by simp [bodyOf]
    rw [hb, List.length_append] at ho
    rw [hb, List.append_assoc] at hf
    have hrl := record_length e
    have h1 := unzipFile_entry (comment := comment) (r := dirFrom comment (ofs + e.record.length) es ++ r)
      (hg e List.mem_cons_self) (hn e List.mem_cons_self) (hd e List.mem_cons_self) (by omega) (by omega) hf
    have hdrop : f.drop (ofs + e.record.length) = bodyOf es ++ t := by
      rw [← List.drop_drop, hf, List.drop_left]
    have h2 := unzipDir_entries (r := r) hcm es (ofs + e.record.length) t
      (fun x hx => hg x (List.mem_cons_of_mem _ hx)) (fun x hx => hn x (List.mem_cons_of_mem _ hx))
      (fun x hx => hd x (List.mem_cons_of_mem _ hx)) (by omega) hdrop
    rw [dirFrom, List.append_assoc, List.length_cons, unzipDir, h1]
    simp only
    rw [central_next (hn e List.mem_cons_self) hcm, h2]
    simp

/-- The archive holds the files. -/
theorem unzip_zipOf {inflate : Bytes → Option Bytes} {comment : Bytes} {es : List ZEntry} (hF : Fits comment es)
    (hg : ∀ e ∈ es, e.Good inflate) :
    unzip inflate (zipOf comment es) = some (es.map fun e => (e.name, e.data)) := by
  have hs := hF.size
  have hl := zipOf_length comment es
  have he : (zipOf comment es).drop ((zipOf comment es).length - 22) =
      endRecord es.length (dirFrom comment 0 es).length (bodyOf es).length := by
    rw [hl, show (bodyOf es).length + (dirFrom comment 0 es).length + 22 - 22 =
      (bodyOf es ++ dirFrom comment 0 es).length by simp, zipOf, List.drop_left]
  obtain ⟨p0, p4, p6, p8, p10, p12, p16, p20⟩ := end_parts es.length (dirFrom comment 0 es).length (bodyOf es).length
  unfold unzip
  simp only [he, field, p0, p4, p6, p8, p10, p12, p16, p20, number_two _ hF.count, number_two 0 (by omega)]
  rw [number_four _ (by omega), number_four _ (by omega), hl]
  have hbody : (zipOf comment es).drop 0 = bodyOf es ++ (dirFrom comment 0 es ++
      endRecord es.length (dirFrom comment 0 es).length (bodyOf es).length) := by simp [zipOf]
  have hdir : (zipOf comment es).drop (bodyOf es).length = dirFrom comment 0 es ++
      endRecord es.length (dirFrom comment 0 es).length (bodyOf es).length := by
    rw [zipOf, List.append_assoc, List.drop_left]
  rw [hdir, unzipDir_entries hF.comment es 0 _ hg hF.name hF.data (by omega) hbody]
  simp

end Semla
