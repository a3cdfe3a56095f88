import Verif.Lemmas.Crc

/-! The archive that `addInPlace` builds. -/

namespace Semla
open Spec

/-- What an archive records about one file. -/
structure ZEntry where
  name : Bytes
  data : Bytes
  comp : Bytes
  method : Nat
  time : Nat
  date : Nat

namespace ZEntry

/-- The header in front of the file. -/
def header (e : ZEntry) : Bytes :=
  localHeader e.name.length e.data.length e.comp.length (mzCrc32 e.data).toNat e.method e.time e.date

/-- The header, the name and the data. -/
def record (e : ZEntry) : Bytes := e.header ++ e.name ++ e.comp

/-- The entry in the directory. -/
def central (comment : Bytes) (e : ZEntry) (ofs : Nat) : Bytes :=
  centralHeader e.name.length comment.length e.data.length e.comp.length (mzCrc32 e.data).toNat e.method
    e.time e.date ofs (zipAttr e.name) ++ e.name ++ comment

end ZEntry

def bodyOf (es : List ZEntry) : Bytes := es.flatMap ZEntry.record

def dirFrom (comment : Bytes) : Nat → List ZEntry → Bytes
  | _, [] => []
  | ofs, e :: es => e.central comment ofs ++ dirFrom comment (ofs + e.record.length) es

/-- The archive. -/
def zipOf (comment : Bytes) (es : List ZEntry) : Bytes :=
  bodyOf es ++ dirFrom comment 0 es ++ endRecord es.length (dirFrom comment 0 es).length (bodyOf es).length

/-- The archive is within the limits of the format. -/
structure Fits (comment : Bytes) (es : List ZEntry) : Prop where
  count : es.length ≤ 65535
  size : (bodyOf es).length + (dirFrom comment 0 es).length + 22 ≤ 0xFFFFFFFF
  name : ∀ e ∈ es, e.name.length ≤ 65535
  data : ∀ e ∈ es, e.data.length ≤ 0xFFFFFFFF
  comment : comment.length ≤ 65535

theorem localHeader_length (a b c d e f g : Nat) : (localHeader a b c d e f g).length = 30 := by
  simp [localHeader, le16, le32]

theorem centralHeader_length (a b c d e f g h i j : Nat) : (centralHeader a b c d e f g h i j).length = 46 := by
  simp [centralHeader, le16, le32]

theorem endRecord_length (a b c : Nat) : (endRecord a b c).length = 22 := by simp [endRecord, le16, le32]

theorem record_length (e : ZEntry) : e.record.length = 30 + e.name.length + e.comp.length := by
  simp [ZEntry.record, ZEntry.header, localHeader_length, Nat.add_assoc]

theorem central_length (comment : Bytes) (e : ZEntry) (ofs : Nat) :
    (e.central comment ofs).length = 46 + e.name.length + comment.length := by
  simp [ZEntry.central, centralHeader_length, Nat.add_assoc]

theorem bodyOf_append (es : List ZEntry) (e : ZEntry) : bodyOf (es ++ [e]) = bodyOf es ++ e.record := by
  simp [bodyOf]

theorem dirFrom_append (comment : Bytes) : ∀ (es : List ZEntry) (e : ZEntry) (ofs : Nat),
    dirFrom comment ofs (es ++ [e]) = dirFrom comment ofs es ++ e.central comment (ofs + (bodyOf es).length)
  | [], e, ofs => by simp [dirFrom, bodyOf]
  | x :: es, e, ofs => by
    simp only [List.cons_append, dirFrom, dirFrom_append comment es e, bodyOf, List.flatMap_cons, List.length_append,
      List.append_assoc, Nat.add_assoc]

theorem zipOf_length (comment : Bytes) (es : List ZEntry) :
    (zipOf comment es).length = (bodyOf es).length + (dirFrom comment 0 es).length + 22 := by
  simp [zipOf, endRecord_length]
  omega

/-! ## Writing -/

theorem putAt_end (P T b : Bytes) : putAt (P ++ T) P.length b = P ++ b ++ T.drop b.length := by
  unfold putAt
  rw [List.take_left, show P.length - (P ++ T).length = 0 by simp]
  simp [List.drop_append]

theorem zWrite_at {io : ZipIo} {w w' : ZipW} {P T b : Bytes} (hf : w.file = P ++ T)
    (h : zWrite io w P.length b = (w', true)) :
    w' = { w with file := P ++ b ++ T.drop b.length, writes := w.writes + 1 } := by
  unfold zWrite at h
  dsimp only at h
  generalize zWritten io w b = n at h
  simp only [Prod.mk.injEq, beq_iff_eq] at h
  obtain ⟨h, hn⟩ := h
  rw [← h]
  subst hn
  rw [List.take_length, hf]
  split
  · rename_i h0
    have : b = [] := List.length_eq_zero_iff.1 h0
    subst this
    simp
  · rw [putAt_end]

theorem zPieces_at {io : ZipIo} : ∀ (ps : List Bytes) {w w' : ZipW} {P T : Bytes} {c c' o : Nat},
    w.file = P ++ T → zPieces io w P.length c ps = (w', some (o, c')) →
    o = P.length + ps.flatten.length ∧ c' = c + ps.flatten.length ∧
      w'.file = P ++ ps.flatten ++ T.drop ps.flatten.length ∧ w'.dir = w.dir ∧ w'.total = w.total ∧ w'.size = w.size
  | [], w, w', P, T, c, c', o, hf, h => by
    simp only [zPieces, Prod.mk.injEq, Option.some.injEq] at h
    obtain ⟨rfl, rfl, rfl⟩ := h
    simp [hf]
  | p :: ps, w, w', P, T, c, c', o, hf, h => by
    unfold zPieces at h
    split at h
    · simp at h
    · rename_i w1 h1
      have e1 := zWrite_at hf h1
      subst e1
      have hP : P.length + p.length = (P ++ p).length := by simp
      rw [hP] at h
      obtain ⟨g1, g2, g3, g4, g5, g6⟩ := zPieces_at ps (T := T.drop p.length) rfl h
      refine ⟨?_, ?_, ?_, g4, g5, g6⟩
      · rw [g1]; simp; omega
      · rw [g2]; simp; omega
      · rw [g3]; simp [List.drop_drop]

/-- The bytes stored for a file. -/
def packed (deflate : Bytes → List Bytes) (data : Bytes) : Bytes :=
  if data.length ≤ 3 then data else (deflate data).flatten

def methodOf (data : Bytes) : Nat := if data.length ≤ 3 then 0 else 8

theorem zData_at {deflate : Bytes → List Bytes} {io : ZipIo} {w w' : ZipW} {P T data : Bytes} {o c m : Nat}
    (hf : w.file = P ++ T) (h : zData deflate io w P.length data = (w', some (o, c, m))) :
    o = P.length + (packed deflate data).length ∧ c = (packed deflate data).length ∧ m = methodOf data ∧
      w'.file = P ++ packed deflate data ++ T.drop (packed deflate data).length ∧ w'.dir = w.dir ∧
      w'.total = w.total ∧ w'.size = w.size := by
  unfold zData at h
  unfold packed methodOf
  split at h
  · rename_i hl
    rw [if_pos hl, if_pos hl]
    split at h
    · simp at h
    · rename_i w1 h1
      have e1 := zWrite_at hf h1
      simp only [Prod.mk.injEq, Option.some.injEq] at h
      obtain ⟨rfl, rfl, rfl, rfl⟩ := h
      subst e1
      exact ⟨rfl, rfl, rfl, rfl, rfl, rfl, rfl⟩
  · rename_i hl
    rw [if_neg hl, if_neg hl]
    split at h
    · simp at h
    · rename_i w1 o1 c1 h1
      obtain ⟨g1, g2, g3, g4, g5, g6⟩ := zPieces_at _ hf h1
      simp only [Prod.mk.injEq, Option.some.injEq] at h
      obtain ⟨rfl, rfl, rfl, rfl⟩ := h
      exact ⟨g1, by omega, rfl, g3, g4, g5, g6⟩

/-- The entry made for a file. -/
def entryOf (deflate : Bytes → List Bytes) (io : ZipIo) (name data : Bytes) : ZEntry :=
  ⟨name, data, packed deflate data, methodOf data, io.time, io.date⟩

theorem zAdd_at {deflate : Bytes → List Bytes} {io : ZipIo} {w w' : ZipW} {B T name data comment : Bytes}
    (hf : w.file = B ++ T) (hs : w.size = B.length) (h : zAdd deflate io w name data comment = (w', true)) :
    w'.file = B ++ (entryOf deflate io name data).record ++ T.drop (entryOf deflate io name data).record.length ∧
      w'.dir = w.dir ++ (entryOf deflate io name data).central comment B.length ∧ w'.total = w.total + 1 ∧
      w'.size = B.length + (entryOf deflate io name data).record.length ∧ w.total ≠ 65535 ∧
      data.length ≤ 0xFFFFFFFF ∧ name.length ≤ 65535 := by
  unfold zAdd at h
  split at h
  · simp at h
  rename_i hc
  split at h
  · simp at h
  rename_i hd
  split at h
  · simp at h
  split at h
  · simp at h
  rename_i hn
  iterate 4
    split at h
    · simp at h
  dsimp only at h
  rw [hs] at h
  split at h
  · simp at h
  rename_i w1 h1
  have e1 := zWrite_at hf h1
  subst e1
  split at h
  · simp at h
  rename_i w2 h2
  rw [show B.length + 30 = (B ++ List.replicate 30 0).length by simp] at h2
  have e2 := zWrite_at rfl h2
  subst e2
  split at h
  · simp at h
  rename_i w3 o c m h3
  rw [show B.length + 30 + name.length = (B ++ List.replicate 30 0 ++ name).length by simp; omega] at h3
  obtain ⟨g1, g2, g3, g4, g5, g6, g7⟩ := zData_at rfl h3
  split at h
  · simp at h
  split at h
  · simp at h
  rename_i w4 h4
  subst g1 g2 g3
  have g4' : w3.file = B ++ (List.replicate 30 0 ++ name ++ packed deflate data ++
      T.drop (30 + (name.length + (packed deflate data).length))) := by
    rw [g4]; simp [List.drop_drop, Nat.add_assoc, Nat.add_comm, Nat.add_left_comm]
  have e4 := zWrite_at g4' h4
  unfold zEnter at h
  split at h
  · simp at h
  simp only [Prod.mk.injEq, and_true] at h
  have hh : (localHeader name.length data.length (packed deflate data).length (mzCrc32 data).toNat (methodOf data)
      io.time io.date).length = (List.replicate 30 (0 : UInt8)).length := by simp [localHeader_length]
  subst e4
  subst h
  dsimp only at g5 g6 ⊢
  refine ⟨?_, ?_, ?_, ?_, hc, by omega, by omega⟩
  · rw [hh, List.append_assoc (List.replicate 30 0), List.append_assoc (List.replicate 30 0), List.drop_left]
    rw [record_length]
    simp [entryOf, ZEntry.record, ZEntry.header, Nat.add_assoc]
  · rw [g5]; simp only [ZEntry.central, entryOf, List.append_assoc]
  · rw [g6]
  · rw [record_length]; simp [entryOf]; omega

theorem zFinish_at {io : ZipIo} {w w' : ZipW} {B T : Bytes} (hf : w.file = B ++ T) (hs : w.size = B.length)
    (ht : w.total ≠ 0) (h : zFinish io w = (w', true)) :
    w'.file = B ++ w.dir ++ endRecord w.total w.dir.length B.length ++ T.drop (w.dir.length + 22) ∧
      w.total ≤ 65535 ∧ B.length + w.dir.length + 22 ≤ 0xFFFFFFFF := by
  unfold zFinish at h
  split at h
  · simp at h
  rename_i hb
  split at h
  · simp at h
  rename_i w1 h1
  rw [hs] at h1
  have e1 := zWrite_at hf h1
  subst e1
  unfold zFinishEnd at h
  split at h
  · simp at h
  rename_i w2 h2
  simp only [hs] at h2
  rw [show B.length + w.dir.length = (B ++ w.dir).length by simp] at h2
  have e2 := zWrite_at rfl h2
  split at h
  rotate_left
  · simp at h
  simp only [Prod.mk.injEq] at h
  obtain ⟨rfl, -⟩ := h
  subst e2
  refine ⟨?_, by omega, by omega⟩
  simp [endRecord_length, List.drop_drop]

/-! ## Reading -/

theorem rd16_drop (l : Bytes) (k i : Nat) : rd16 (l.drop k) i = rd16 l (k + i) := by
  simp [rd16, List.getD_eq_getElem?_getD, Nat.add_assoc]

theorem rd32_drop (l : Bytes) (k i : Nat) : rd32 (l.drop k) i = rd32 l (k + i) := by
  simp [rd32, rd16_drop, Nat.add_assoc]

theorem toNat_ofNat8 (n : Nat) : (UInt8.ofNat n).toNat = n % 256 := by simp

theorem endRecord_sig (a b c : Nat) : rd32 (endRecord a b c) 0 = 0x06054b50 := by
  simp only [endRecord, le16, le32, rd32, rd16, List.cons_append, List.nil_append, List.getD_cons_succ,
    List.getD_cons_zero, toNat_ofNat8, Nat.zero_add]

theorem lastSig_some {buf : Bytes} {k : Nat} (hk : rd32 buf k = 0x06054b50) : ∀ n, k ≤ n →
    ∃ i, lastSig buf n = some i ∧ k ≤ i
  | 0, h => by
    have : k = 0 := by omega
    subst this
    exact ⟨0, by simp [lastSig, hk], Nat.le_refl _⟩
  | n + 1, h => by
    unfold lastSig
    split
    · exact ⟨n + 1, rfl, h⟩
    · rename_i hn
      have : k ≠ n + 1 := fun e => hn (e ▸ hk)
      exact lastSig_some hk n (by omega)

theorem findEnd_first {io : ZipIo} {f : Bytes} {s cur n k k' ofs fuel : Nat} (hn : n = min 4096 (f.length - cur))
    (hs : rd32 f s = 0x06054b50) (h1 : cur ≤ s) (h2 : s + 4 ≤ cur + n) (h3 : f.length ≤ cur + n)
    (h : findEnd io f (fuel + 1) cur k = some (ofs, k')) : s ≤ ofs ∧ k' = k + 1 := by
  unfold findEnd at h
  rw [← hn] at h
  dsimp only at h
  split at h
  · simp at h
  have hb : (f.drop cur).take n = f.drop cur := List.take_of_length_le (by rw [List.length_drop]; omega)
  rw [if_neg (show ¬ n < 4 by omega), hb] at h
  have hsig : rd32 (f.drop cur) (s - cur) = 0x06054b50 := by
    rw [rd32_drop, show cur + (s - cur) = s by omega]; exact hs
  obtain ⟨i, hi, hle⟩ := lastSig_some hsig (n - 4) (by omega)
  rw [hi] at h
  simp only [Option.some.injEq, Prod.mk.injEq] at h
  obtain ⟨rfl, rfl⟩ := h
  exact ⟨by omega, rfl⟩

/-- The search ends at the record at the end of the archive or behind its beginning. -/
theorem findEnd_ge {io : ZipIo} {F : Bytes} {a b c : Nat} {ofs k fuel : Nat}
    (h : findEnd io (F ++ endRecord a b c) (fuel + 1) ((F ++ endRecord a b c).length - 4096) 0 = some (ofs, k)) :
    F.length ≤ ofs ∧ k = 1 := by
  have hl : (F ++ endRecord a b c).length = F.length + 22 := by simp [endRecord_length]
  refine findEnd_first rfl ?_ ?_ ?_ ?_ h
  · have := rd32_drop (F ++ endRecord a b c) F.length 0
    rw [List.drop_left, endRecord_sig, Nat.add_zero] at this
    exact this.symm
  all_goals rw [hl]; omega

theorem endRecord_fields (a b c : Nat) (ha : a ≤ 65535) (hb : b ≤ 0xFFFFFFFF) (hc : c ≤ 0xFFFFFFFF) :
    rd16 (endRecord a b c) 4 = 0 ∧ rd16 (endRecord a b c) 6 = 0 ∧ rd16 (endRecord a b c) 8 = a ∧
    rd16 (endRecord a b c) 10 = a ∧ rd32 (endRecord a b c) 12 = b ∧ rd32 (endRecord a b c) 16 = c := by
  simp only [endRecord, le16, le32, rd32, rd16, List.cons_append, List.nil_append, List.getD_cons_succ,
    List.getD_cons_zero, toNat_ofNat8, true_and]
  exact ⟨by omega, by omega, by omega, by omega⟩

theorem readDir_zip {io : ZipIo} {comment : Bytes} {es : List ZEntry} (hne : es ≠ []) (hF : Fits comment es)
    {r : Bytes × Nat × Nat} (h : readDir io (zipOf comment es) = some r) :
    r = (dirFrom comment 0 es, es.length, (bodyOf es).length) := by
  have hs := hF.size
  unfold readDir at h
  split at h
  · simp at h
  split at h
  · simp at h
  rename_i ofs k hfe
  have hl : (zipOf comment es).length = (bodyOf es).length + (dirFrom comment 0 es).length + 22 := zipOf_length _ _
  obtain ⟨hge, rfl⟩ := findEnd_ge (F := bodyOf es ++ dirFrom comment 0 es) hfe
  dsimp only at h
  split at h
  · simp at h
  rename_i hshort
  have hofs : ofs = (bodyOf es ++ dirFrom comment 0 es).length := by
    have : ¬ ((zipOf comment es).drop ofs |>.take 22).length < 22 := fun hc => hshort (.inr hc)
    rw [List.length_take, List.length_drop, hl] at this
    rw [List.length_append] at hge ⊢
    omega
  have he : ((zipOf comment es).drop ofs).take 22 =
      endRecord es.length (dirFrom comment 0 es).length (bodyOf es).length := by
    rw [hofs, zipOf, List.drop_left, List.take_of_length_le (by rw [endRecord_length]; omega)]
  rw [he] at h
  obtain ⟨f4, f6, f8, f10, f12, f16⟩ := endRecord_fields es.length (dirFrom comment 0 es).length (bodyOf es).length
    hF.count (by omega) (by omega)
  rw [f4, f6, f8, f10, f12, f16] at h
  have hne' : es.length ≠ 0 := by simpa using hne
  simp only [hne', if_false] at h
  iterate 4
    split at h
    · simp at h
  iterate 2
    split at h
    · simp at h
  split at h
  · simp only [Option.some.injEq] at h
    rw [← h, zipOf, List.append_assoc, List.drop_left, List.take_left]
  · simp at h

theorem openZip_zip {io : ZipIo} {comment : Bytes} {es : List ZEntry} (hne : es ≠ []) (hF : Fits comment es)
    {w : ZipW} (h : openZip io (zipOf comment es) = some w) :
    w = ⟨zipOf comment es, dirFrom comment 0 es, es.length, (bodyOf es).length, 0⟩ := by
  unfold openZip at h
  split at h
  · simp at h
  split at h
  · simp at h
  rename_i dir total ofs hr
  have := readDir_zip hne hF hr
  simp only [Prod.mk.injEq] at this
  obtain ⟨rfl, rfl, rfl⟩ := this
  iterate 2
    split at h
    · simp at h
  simpa using h.symm

theorem dirFrom_length_append (comment : Bytes) (es : List ZEntry) (e : ZEntry) :
    (dirFrom comment 0 (es ++ [e])).length = (dirFrom comment 0 es).length + (46 + e.name.length + comment.length) := by
  rw [dirFrom_append, List.length_append, central_length]

/-- Adding a file to an archive that is being written. -/
theorem zAddFinish_zip {deflate : Bytes → List Bytes} {io : ZipIo} {comment name data : Bytes} {es : List ZEntry}
    {w : ZipW} {T : Bytes} (hw : w.file = bodyOf es ++ T) (hT : T.length ≤ (dirFrom comment 0 es).length + 22)
    (hd : w.dir = dirFrom comment 0 es) (ht : w.total = es.length) (hs : w.size = (bodyOf es).length)
    (hn : ∀ e ∈ es, e.name.length ≤ 65535) (hda : ∀ e ∈ es, e.data.length ≤ 0xFFFFFFFF)
    (hcm : comment.length ≤ 65535) (h : (zAddFinish deflate io w name data comment).2 = true) :
    (zAddFinish deflate io w name data comment).1.file = zipOf comment (es ++ [entryOf deflate io name data]) ∧
      Fits comment (es ++ [entryOf deflate io name data]) := by
  unfold zAddFinish at h ⊢
  dsimp only at h ⊢
  rw [Bool.and_eq_true] at h
  obtain ⟨h1, h2⟩ := h
  cases hz : zAdd deflate io w name data comment with | mk w1 b1 =>
  rw [hz] at h1 h2
  simp only at h1 h2
  subst h1
  obtain ⟨g1, g2, g3, g4, g5, g6, g7⟩ := zAdd_at hw hs hz
  cases hz2 : zFinish io w1 with | mk w2 b2 =>
  rw [hz2] at h2
  simp only at h2
  subst h2
  rw [← bodyOf_append] at g1
  have hs1 : w1.size = (bodyOf (es ++ [entryOf deflate io name data])).length := by
    rw [g4, bodyOf_append, List.length_append]
  have hd1 : w1.dir = dirFrom comment 0 (es ++ [entryOf deflate io name data]) := by
    rw [g2, dirFrom_append, hd, Nat.zero_add]
  obtain ⟨f1, f2, f3⟩ := zFinish_at g1 hs1 (by omega) hz2
  have hdl := dirFrom_length_append comment es (entryOf deflate io name data)
  refine ⟨?_, ?_⟩
  · simp only
    rw [f1, hd1, g3, ht]
    rw [List.drop_drop, List.drop_eq_nil_of_le (by rw [record_length, hdl]; omega), List.append_nil]
    simp [zipOf]
  · rw [hd1] at f3
    refine ⟨by simp; omega, f3, ?_, ?_, hcm⟩
    · intro e he
      rcases List.mem_append.1 he with he | he
      · exact hn e he
      · rw [List.mem_singleton.1 he]; exact g7
    · intro e he
      rcases List.mem_append.1 he with he | he
      · exact hda e he
      · rw [List.mem_singleton.1 he]; exact g6

/-- The archive after files were added. -/
def archiveOf (comment : Bytes) (es : List ZEntry) : Option Bytes := if es = [] then none else some (zipOf comment es)

theorem addInPlace_zip {deflate : Bytes → List Bytes} {io : ZipIo} {comment name data : Bytes} {es : List ZEntry}
    {r : Option Bytes} (hF : Fits comment es) (hst : ∀ f, archiveOf comment es = some f → io.stat f.length = true)
    (h : addInPlace deflate io (archiveOf comment es) name data comment = (r, true)) :
    r = archiveOf comment (es ++ [entryOf deflate io name data]) ∧ Fits comment (es ++ [entryOf deflate io name data]) := by
  unfold addInPlace at h
  split at h
  · simp at h
  have harch : archiveOf comment (es ++ [entryOf deflate io name data]) =
      some (zipOf comment (es ++ [entryOf deflate io name data])) := by simp [archiveOf]
  rw [harch]
  by_cases hes : es = []
  · subst hes
    simp only [archiveOf, if_true, Option.filter_none] at h
    split at h
    · simp at h
    split at h
    · rename_i hok
      obtain ⟨g1, g2⟩ := zAddFinish_zip (es := []) (T := []) (by simp [bodyOf]) (by simp) rfl rfl
        (by simp [bodyOf]) (by simp) (by simp) hF.comment hok
      simp only [Prod.mk.injEq, and_true] at h
      rw [← h, g1]
      exact ⟨rfl, g2⟩
    · simp at h
  · have ho : archiveOf comment es = some (zipOf comment es) := by simp [archiveOf, hes]
    have hs := hst _ ho
    rw [ho] at h
    simp only [Option.filter_some, hs, if_true] at h
    split at h
    · simp at h
    · rename_i w hw
      have := openZip_zip hes hF hw
      subst this
      simp only [Prod.mk.injEq] at h
      obtain ⟨h1, h2⟩ := h
      obtain ⟨g1, g2⟩ := zAddFinish_zip (es := es)
        (T := dirFrom comment 0 es ++ endRecord es.length (dirFrom comment 0 es).length (bodyOf es).length)
        (by simp [zipOf]) (by simp [endRecord_length]) rfl rfl rfl hF.name hF.data hF.comment h2
      rw [← h1, g1]
      exact ⟨rfl, g2⟩

end Semla
