import Verif.Lemmas.Unzip
import Verif.Spec.ZipWin

/-! When `addInPlace` succeeds. -/

namespace Semla
open Spec

theorem endRecord_once {a b c : Nat} (ha : a < 19280) (hb : b < 80000000) (hc : c < 80000000) (j : Nat) (h1 : 1 ≤ j)
    (h2 : j ≤ 18) : rd32 (endRecord a b c) j ≠ 0x06054b50 := by
  have hj : j = 1 ∨ j = 2 ∨ j = 3 ∨ j = 4 ∨ j = 5 ∨ j = 6 ∨ j = 7 ∨ j = 8 ∨ j = 9 ∨ j = 10 ∨ j = 11 ∨ j = 12 ∨
      j = 13 ∨ j = 14 ∨ j = 15 ∨ j = 16 ∨ j = 17 ∨ j = 18 := by omega
  rcases hj with rfl | rfl | rfl | rfl | rfl | rfl | rfl | rfl | rfl | rfl | rfl | rfl | rfl | rfl | rfl | rfl |
    rfl | rfl <;>
  simp only [endRecord, le16, le32, rd32, rd16, List.cons_append, List.nil_append, List.getD_cons_succ,
    List.getD_cons_zero, toNat_ofNat8] <;> omega

theorem lastSig_eq {buf : Bytes} {k : Nat} (hk : rd32 buf k = 0x06054b50) : ∀ n, k ≤ n →
    (∀ j, k < j → j ≤ n → rd32 buf j ≠ 0x06054b50) → lastSig buf n = some k
  | 0, h, _ => by
    have : k = 0 := by omega
    subst this
    simp [lastSig, hk]
  | n + 1, h, hj => by
    unfold lastSig
    by_cases he : k = n + 1
    · subst he
      rw [if_pos hk]
    · rw [if_neg (hj (n + 1) (by omega) (Nat.le_refl _))]
      exact lastSig_eq hk n (by omega) fun j h1 h2 => hj j h1 (by omega)

theorem findEnd_eq {io : ZipIo} {f : Bytes} {s cur n k fuel : Nat} (hn : n = min 4096 (f.length - cur))
    (hr : io.read k = true) (hs : rd32 f s = 0x06054b50) (h1 : cur ≤ s) (h2 : s + 4 ≤ cur + n)
    (h3 : f.length ≤ cur + n) (h4 : ∀ j, s < j → j + 4 ≤ f.length → rd32 f j ≠ 0x06054b50) :
    findEnd io f (fuel + 1) cur k = some (s, k + 1) := by
  unfold findEnd
  rw [← hn]
  dsimp only
  rw [hr]
  have hb : (f.drop cur).take n = f.drop cur := List.take_of_length_le (by rw [List.length_drop]; omega)
  rw [if_neg (show ¬ n < 4 by omega), hb]
  have hsig : rd32 (f.drop cur) (s - cur) = 0x06054b50 := by
    rw [rd32_drop, show cur + (s - cur) = s by omega]; exact hs
  rw [lastSig_eq hsig (n - 4) (by omega) fun j g1 g2 => by
    rw [rd32_drop]; exact h4 _ (by omega) (by omega)]
  simp only [Bool.not_true, Bool.false_eq_true, if_false, Option.some.injEq, Prod.mk.injEq, and_true]
  omega

/-- The entries are such that the reader of miniz accepts them. -/
structure ZEntry.Fine (e : ZEntry) : Prop where
  name : e.name.length ≤ 65535
  same : e.method = 0 → e.comp = e.data
  method : e.method = 0 ∨ e.method = 8
  some : e.data ≠ [] → e.comp ≠ []
  data : e.data.length < 0xFFFFFFFF
  comp : e.comp.length < 0xFFFFFFFF

theorem central_rd {nl cl size comp crc method time date ofs attr : Nat} {r : Bytes} (h1 : nl ≤ 65535) (h2 : cl ≤ 65535)
    (h3 : size ≤ 0xFFFFFFFF) (h4 : comp ≤ 0xFFFFFFFF) (h5 : ofs ≤ 0xFFFFFFFF) (h6 : method ≤ 65535) :
    rd32 (centralHeader nl cl size comp crc method time date ofs attr ++ r) 0 = 0x02014b50 ∧
    rd32 (centralHeader nl cl size comp crc method time date ofs attr ++ r) 20 = comp ∧
    rd32 (centralHeader nl cl size comp crc method time date ofs attr ++ r) 24 = size ∧
    rd16 (centralHeader nl cl size comp crc method time date ofs attr ++ r) 10 = method ∧
    rd16 (centralHeader nl cl size comp crc method time date ofs attr ++ r) 34 = 0 ∧
    rd32 (centralHeader nl cl size comp crc method time date ofs attr ++ r) 42 = ofs ∧
    rd16 (centralHeader nl cl size comp crc method time date ofs attr ++ r) 28 = nl ∧
    rd16 (centralHeader nl cl size comp crc method time date ofs attr ++ r) 30 = 0 ∧
    rd16 (centralHeader nl cl size comp crc method time date ofs attr ++ r) 32 = cl := by
  simp only [centralHeader, le16, le32, rd32, rd16, List.cons_append, List.nil_append, List.getD_cons_succ,
    List.getD_cons_zero, toNat_ofNat8, true_and, Nat.zero_add]
  exact ⟨by omega, by omega, by omega, by omega, by omega, by omega⟩

theorem checkDir_ok {comment : Bytes} {size : Nat} (hcm : comment.length ≤ 65535) (hsz : size ≤ 0xFFFFFFFF) :
    ∀ (es : List ZEntry) (ofs : Nat), (∀ e ∈ es, e.Fine) → ofs + (bodyOf es).length ≤ size →
      checkDir size 0 es.length (dirFrom comment ofs es) = true
  | [], _, _, _ => rfl
  | e :: es, ofs, hf, hs => by
    have hb : bodyOf (e :: es) = e.record ++ bodyOf es := by simp [bodyOf]
    rw [hb, List.length_append] at hs
    have hrl := record_length e
    have hE := hf e List.mem_cons_self
    obtain ⟨n1, n2, n3, n4, n5, n6⟩ := hE
    have hcen : dirFrom comment ofs (e :: es) = centralHeader e.name.length comment.length
        e.data.length e.comp.length (mzCrc32 e.data).toNat e.method e.time e.date ofs (zipAttr e.name) ++
        (e.name ++ comment ++ dirFrom comment (ofs + e.record.length) es) := by simp [dirFrom, ZEntry.central]
    have hdrop : (dirFrom comment ofs (e :: es)).drop (46 + e.name.length + 0 + comment.length) =
        dirFrom comment (ofs + e.record.length) es := by
      rw [show 46 + e.name.length + 0 + comment.length = (e.central comment ofs).length by
        rw [central_length]; omega, dirFrom, List.drop_left]
    have hlen : (dirFrom comment ofs (e :: es)).length = 46 + e.name.length + comment.length +
        (dirFrom comment (ofs + e.record.length) es).length := by
      rw [dirFrom, List.length_append, central_length]
    obtain ⟨r0, r20, r24, r10, r34, r42, r28, r30, r32⟩ := central_rd (crc := (mzCrc32 e.data).toNat)
      (time := e.time) (date := e.date) (attr := zipAttr e.name)
      (r := e.name ++ comment ++ dirFrom comment (ofs + e.record.length) es) n1 hcm (Nat.le_of_lt n5)
      (Nat.le_of_lt n6) (show ofs ≤ 0xFFFFFFFF by omega) (show e.method ≤ 65535 by omega)
    rw [← hcen] at r0 r20 r24 r10 r34 r42 r28 r30 r32
    rw [List.length_cons, checkDir, r0, r20, r24, r34, r42, r28, r30, r32]
    dsimp only
    rw [hdrop, if_neg (by rw [hlen]; simp; omega)]
    rw [if_neg, if_neg (by simp), if_neg (by omega), if_neg (by rw [hlen]; omega)]
    · exact checkDir_ok hcm hsz es _ (fun x hx => hf x (List.mem_cons_of_mem _ hx)) (by omega)
    · rintro (⟨h1, h2⟩ | ⟨h1, h2⟩ | h1 | h1)
      · have : e.method = 0 := by
          have h3 : rd16 (dirFrom comment ofs (e :: es)) 10 ≤ rd32 (dirFrom comment ofs (e :: es)) 10 := by
            rw [rd32]; exact Nat.le_add_right _ _
          omega
        exact h2 (by rw [n2 this])
      · exact n4 (fun h => h1 (by rw [h]; rfl)) (List.length_eq_zero_iff.1 h2)
      · omega
      · omega

theorem dirFrom_ge (comment : Bytes) : ∀ (es : List ZEntry) (ofs : Nat), es.length * 46 ≤ (dirFrom comment ofs es).length
  | [], _ => by simp [dirFrom]
  | e :: es, ofs => by
    have := dirFrom_ge comment es (ofs + e.record.length)
    rw [dirFrom, List.length_append, central_length, List.length_cons]
    omega

theorem openZip_ok {io : ZipIo} {comment : Bytes} {es : List ZEntry} (hw : AllWell io) (hne : es ≠ [])
    (hF : Fits comment es) (hf : ∀ e ∈ es, e.Fine) (hc : es.length < 19280)
    (hs : (zipOf comment es).length < 80000000) :
    openZip io (zipOf comment es) = some ⟨zipOf comment es, dirFrom comment 0 es, es.length, (bodyOf es).length, 0⟩ := by
  have hl := zipOf_length comment es
  obtain ⟨f4, f6, f8, f10, f12, f16⟩ := endRecord_fields es.length (dirFrom comment 0 es).length (bodyOf es).length
    hF.count (by omega) (by omega)
  have hfe : findEnd io (zipOf comment es) ((zipOf comment es).length + 1) ((zipOf comment es).length - 4096) 0 =
      some ((bodyOf es ++ dirFrom comment 0 es).length, 1) := by
    have hd : ∀ j, rd32 (zipOf comment es) ((bodyOf es ++ dirFrom comment 0 es).length + j) =
        rd32 (endRecord es.length (dirFrom comment 0 es).length (bodyOf es).length) j := by
      intro j
      rw [← rd32_drop, zipOf, List.drop_left]
    generalize hcur : (zipOf comment es).length - 4096 = cur
    obtain ⟨n, hn⟩ : ∃ n, n = min 4096 ((zipOf comment es).length - cur) := ⟨_, rfl⟩
    refine findEnd_eq hn (hw.read 0) ?_ ?_ ?_ ?_ ?_
    · exact (hd 0).trans (endRecord_sig _ _ _)
    · rw [List.length_append]; omega
    · rw [List.length_append]; omega
    · omega
    · intro j h1 h2
      rw [List.length_append] at h1
      have := hd (j - (bodyOf es ++ dirFrom comment 0 es).length)
      rw [List.length_append, show (bodyOf es).length + (dirFrom comment 0 es).length +
        (j - ((bodyOf es).length + (dirFrom comment 0 es).length)) = j by omega] at this
      rw [this]
      exact endRecord_once hc (by omega) (by omega) _ (by omega) (by omega)
  have he : ((zipOf comment es).drop (bodyOf es ++ dirFrom comment 0 es).length).take 22 =
      endRecord es.length (dirFrom comment 0 es).length (bodyOf es).length := by
    rw [zipOf, List.drop_left, List.take_of_length_le (by rw [endRecord_length]; omega)]
  have hdir : ((zipOf comment es).drop (bodyOf es).length).take (dirFrom comment 0 es).length = dirFrom comment 0 es := by
    rw [zipOf, List.append_assoc, List.drop_left, List.take_left]
  have hcd := checkDir_ok (size := (zipOf comment es).length) hF.comment (by omega) es 0 hf (by omega)
  have hne' : es.length ≠ 0 := by simpa using hne
  have hge := dirFrom_ge comment es 0
  have hrd : readDir io (zipOf comment es) = some (dirFrom comment 0 es, es.length, (bodyOf es).length) := by
    unfold readDir
    rw [if_neg (by omega), hfe]
    dsimp only
    rw [he, endRecord_length, f4, f6, f8, f10, f12, f16, endRecord_sig, hdir, hcd, hw.read 1, hw.read (1 + 1),
      hw.memory.2.1]
    rw [if_neg (by simp), if_neg (by simp), if_neg (by simp), if_neg (by omega), if_neg (by omega), if_neg hne']
    simp
  unfold openZip
  rw [hw.opens.1, hw.opens.2.1, hw.opens.2.2, hw.memory.1, hrd]
  simp only [Bool.not_true, Bool.false_eq_true, or_self, if_false]
  rw [if_neg (by omega)]

theorem zWrite_all {io : ZipIo} (hw : ∀ k, io.write k = none) (w : ZipW) (ofs : Nat) (b : Bytes) :
    ∃ w', zWrite io w ofs b = (w', true) := by
  unfold zWrite zWritten
  rw [hw]
  exact ⟨_, by simp; rfl⟩

theorem zPieces_all {io : ZipIo} (hw : ∀ k, io.write k = none) : ∀ (ps : List Bytes) (w : ZipW) (ofs c : Nat),
    ∃ w', zPieces io w ofs c ps = (w', some (ofs + ps.flatten.length, c + ps.flatten.length))
  | [], w, ofs, c => ⟨w, by simp [zPieces]⟩
  | p :: ps, w, ofs, c => by
    obtain ⟨w1, h1⟩ := zWrite_all hw w ofs p
    obtain ⟨w2, h2⟩ := zPieces_all hw ps w1 (ofs + p.length) (c + p.length)
    refine ⟨w2, ?_⟩
    rw [zPieces, h1]
    simp only
    rw [h2]
    simp [Nat.add_assoc]

theorem zData_all {deflate : Bytes → List Bytes} {io : ZipIo} (hw : ∀ k, io.write k = none) (w : ZipW) (ofs : Nat)
    (data : Bytes) :
    ∃ w', zData deflate io w ofs data =
      (w', some (ofs + (packed deflate data).length, (packed deflate data).length, methodOf data)) := by
  unfold zData packed methodOf
  split
  · obtain ⟨w1, h1⟩ := zWrite_all hw w ofs data
    exact ⟨w1, by rw [h1]⟩
  · obtain ⟨w1, h1⟩ := zPieces_all hw (deflate data) w ofs 0
    exact ⟨w1, by rw [h1]; simp⟩

theorem zWrite_same {io : ZipIo} {w w' : ZipW} {ofs : Nat} {b : Bytes} {t : Bool} (h : zWrite io w ofs b = (w', t)) :
    w'.dir = w.dir ∧ w'.total = w.total ∧ w'.size = w.size := by
  unfold zWrite at h
  simp only [Prod.mk.injEq] at h
  obtain ⟨rfl, -⟩ := h
  exact ⟨rfl, rfl, rfl⟩

theorem zPieces_same {io : ZipIo} : ∀ (ps : List Bytes) {w w' : ZipW} {ofs c : Nat} {t : Option (Nat × Nat)},
    zPieces io w ofs c ps = (w', t) → w'.dir = w.dir ∧ w'.total = w.total ∧ w'.size = w.size
  | [], w, w', ofs, c, t, h => by
    simp only [zPieces, Prod.mk.injEq] at h
    obtain ⟨rfl, -⟩ := h
    exact ⟨rfl, rfl, rfl⟩
  | p :: ps, w, w', ofs, c, t, h => by
    unfold zPieces at h
    split at h
    · rename_i w1 h1
      simp only [Prod.mk.injEq] at h
      obtain ⟨rfl, -⟩ := h
      exact zWrite_same h1
    · rename_i w1 h1
      obtain ⟨a, b, c⟩ := zWrite_same h1
      obtain ⟨a', b', c'⟩ := zPieces_same ps h
      exact ⟨a'.trans a, b'.trans b, c'.trans c⟩

theorem zData_same {deflate : Bytes → List Bytes} {io : ZipIo} {w w' : ZipW} {ofs : Nat} {data : Bytes}
    {t : Option (Nat × Nat × Nat)} (h : zData deflate io w ofs data = (w', t)) :
    w'.dir = w.dir ∧ w'.total = w.total ∧ w'.size = w.size := by
  unfold zData at h
  split at h
  · split at h <;> rename_i w1 h1 <;> simp only [Prod.mk.injEq] at h <;> obtain ⟨rfl, -⟩ := h <;> exact zWrite_same h1
  · split at h
    · rename_i w1 h1
      simp only [Prod.mk.injEq] at h
      obtain ⟨rfl, -⟩ := h
      exact zPieces_same _ h1
    · rename_i w1 a b h1
      simp only [Prod.mk.injEq] at h
      obtain ⟨rfl, -⟩ := h
      exact zPieces_same _ h1

theorem zAdd_ok {deflate : Bytes → List Bytes} {io : ZipIo} {w : ZipW} {name data comment : Bytes} (hw : AllWell io)
    (ht : w.total < 65535) (hd : data.length ≤ 0xFFFFFFFF) (hn : zipNameOk name = true) (hnl : name.length ≤ 65535)
    (hslash : ¬ (name.getLast? = some 47 ∧ data ≠ []))
    (hs : w.size + (30 + name.length + (packed deflate data).length) +
      (w.dir.length + (46 + name.length + comment.length)) ≤ 0xFFFFFFFF) :
    ∃ w', zAdd deflate io w name data comment = (w', true) ∧ w'.total = w.total + 1 ∧
      w'.size = w.size + (30 + name.length + (packed deflate data).length) ∧
      w'.dir.length = w.dir.length + (46 + name.length + comment.length) := by
  obtain ⟨w1, h1⟩ := zWrite_all hw.write w w.size (List.replicate 30 0)
  obtain ⟨w2, h2⟩ := zWrite_all hw.write w1 (w.size + 30) name
  obtain ⟨w3, h3⟩ := zData_all (deflate := deflate) hw.write w2 (w.size + 30 + name.length) data
  obtain ⟨w4, h4⟩ := zWrite_all hw.write w3 w.size (localHeader name.length data.length (packed deflate data).length
    (mzCrc32 data).toNat (methodOf data) io.time io.date)
  have s1 := zWrite_same h1
  have s2 := zWrite_same h2
  have s3 := zData_same h3
  have s4 := zWrite_same h4
  have hdir : w4.dir = w.dir := s4.1.trans (s3.1.trans (s2.1.trans s1.1))
  have htot : w4.total = w.total := s4.2.1.trans (s3.2.1.trans (s2.2.1.trans s1.2.1))
  unfold zAdd
  rw [if_neg (by omega), if_neg (by omega), hn, if_neg (by simp), if_neg (by omega), if_neg (by omega), if_neg hslash,
    hw.memory.2.2.1, hw.memory.2.2.2, if_neg (by simp), if_neg (by simp)]
  dsimp only
  rw [h1]
  dsimp only
  rw [h2]
  dsimp only
  rw [h3]
  dsimp only
  rw [if_neg (by omega), h4]
  dsimp only
  unfold zEnter
  rw [if_neg (by rw [hdir]; omega)]
  refine ⟨_, rfl, ?_, ?_, ?_⟩
  · simp only [htot]
  · simp only; omega
  · simp only [List.length_append, centralHeader_length, hdir]; omega

theorem zFinish_ok {io : ZipIo} {w : ZipW} (hw : AllWell io) (ht : w.total ≤ 65535)
    (hs : w.size + w.dir.length + 22 ≤ 0xFFFFFFFF) : ∃ w', zFinish io w = (w', true) := by
  have hend : ∀ w a b, ∃ w', zFinishEnd io w a b = (w', true) := by
    intro w a b
    obtain ⟨w1, h1⟩ := zWrite_all hw.write w w.size (endRecord w.total a b)
    exact ⟨w1, by simp [zFinishEnd, h1, hw.flush]⟩
  unfold zFinish
  rw [if_neg (by omega)]
  split
  · obtain ⟨w1, h1⟩ := zWrite_all hw.write w w.size w.dir
    rw [h1]
    exact hend _ _ _
  · exact hend _ _ _

theorem zAddFinish_ok {deflate : Bytes → List Bytes} {io : ZipIo} {w : ZipW} {name data comment : Bytes}
    (hw : AllWell io)
    (ht : w.total < 65535) (hd : data.length ≤ 0xFFFFFFFF) (hn : zipNameOk name = true) (hnl : name.length ≤ 65535)
    (hslash : ¬ (name.getLast? = some 47 ∧ data ≠ []))
    (hs : w.size + (30 + name.length + (packed deflate data).length) +
      (w.dir.length + (46 + name.length + comment.length)) + 22 ≤ 0xFFFFFFFF) :
    (zAddFinish deflate io w name data comment).2 = true := by
  obtain ⟨w1, h1, h2, h3, h4⟩ := zAdd_ok (deflate := deflate) (comment := comment) hw ht hd hn hnl hslash (by omega)
  obtain ⟨w2, h5⟩ := zFinish_ok (w := w1) hw (by omega) (by omega)
  simp [zAddFinish, h1, h5]

/-- A file is added to what there is. -/
theorem addInPlace_ok {deflate : Bytes → List Bytes} {io : ZipIo} {comment name data : Bytes} {es : List ZEntry}
    (hw : AllWell io) (hF : Fits comment es) (hf : ∀ e ∈ es, e.Fine) (hc : es.length < 19280)
    (hst : ∀ f, archiveOf comment es = some f → io.stat f.length = true ∧ f.length < 80000000)
    (hd : data.length ≤ 0xFFFFFFFF) (hn : zipNameOk name = true) (hnl : name.length ≤ 65535)
    (hslash : ¬ (name.getLast? = some 47 ∧ data ≠ []))
    (hs : (bodyOf es).length + (30 + name.length + (packed deflate data).length) +
      ((dirFrom comment 0 es).length + (46 + name.length + comment.length)) + 22 ≤ 0xFFFFFFFF) :
    ∃ r, addInPlace deflate io (archiveOf comment es) name data comment = (r, true) := by
  unfold addInPlace
  rw [hn, if_neg (by simp)]
  by_cases hes : es = []
  · subst hes
    have h := zAddFinish_ok (deflate := deflate) (io := io) (w := ⟨[], [], 0, 0, 0⟩) (comment := comment) hw
      (by simp) hd hn hnl hslash (by simpa [bodyOf, dirFrom] using hs)
    simp only [archiveOf, if_true, Option.filter_none]
    rw [hw.memory.1, hw.opens.1, if_neg (by simp), if_pos h]
    exact ⟨_, rfl⟩
  · have ho : archiveOf comment es = some (zipOf comment es) := by simp [archiveOf, hes]
    obtain ⟨g1, g2⟩ := hst _ ho
    rw [ho]
    simp only [Option.filter_some, g1, if_true]
    rw [openZip_ok hw hes hF hf hc g2]
    dsimp only
    rw [zAddFinish_ok hw (by simp only; omega) hd hn hnl hslash hs]
    exact ⟨_, rfl⟩

/-! ## All files -/

theorem packed_length (deflate : Bytes → List Bytes) (data : Bytes) : (packed deflate data).length =
    if data.length ≤ 3 then data.length else (deflate data).flatten.length := by
  unfold packed; split <;> rfl

theorem entry_room (deflate : Bytes → List Bytes) (io : ZipIo) (name data : Bytes) (ofs : Nat) :
    (entryOf deflate io name data).record.length +
      ((entryOf deflate io name data).central b!"Modelica_archive" ofs).length = roomFor deflate name data := by
  rw [record_length, central_length, roomFor, ← packed_length]
  simp only [entryOf]
  omega

theorem entry_good {inflate : Bytes → Option Bytes} {deflate : Bytes → List Bytes} (h : Restores inflate deflate)
    (io : ZipIo) (name data : Bytes) : (entryOf deflate io name data).Good inflate := by
  unfold ZEntry.Good entryOf packed methodOf
  by_cases hl : data.length ≤ 3
  · exact .inl (by simp [hl])
  · exact .inr (by simpa [hl] using h data (by omega))

/-- The length of an archive. -/
def zipLen (comment : Bytes) (es : List ZEntry) : Nat :=
  (bodyOf es).length + (dirFrom comment 0 es).length + 22

theorem zipLen_append (deflate : Bytes → List Bytes) (io : ZipIo) (name data : Bytes) (es : List ZEntry) :
    zipLen b!"Modelica_archive" (es ++ [entryOf deflate io name data]) =
      zipLen b!"Modelica_archive" es + roomFor deflate name data := by
  have := entry_room deflate io name data (0 + (bodyOf es).length)
  unfold zipLen
  rw [bodyOf_append, dirFrom_append, List.length_append, List.length_append, ← this]
  omega

theorem archiveOf_length {comment : Bytes} {es : List ZEntry} {f : Bytes} (h : archiveOf comment es = some f) :
    f.length = zipLen comment es := by
  unfold archiveOf at h
  split at h
  · simp at h
  · simp only [Option.some.injEq] at h
    rw [← h, zipOf_length, zipLen]

theorem fits_nil : Fits b!"Modelica_archive" [] :=
  ⟨by simp, by simp [bodyOf, dirFrom], by simp, by simp, by simp⟩

theorem addFiles_zip {deflate : Bytes → List Bytes} : ∀ (files : List (ZipIo × Bytes × Bytes)) (es : List ZEntry)
    (r : Option Bytes), Fits b!"Modelica_archive" es →
    (∀ x ∈ files, StatSmall x.1) →
    zipLen b!"Modelica_archive" es + (files.map fun x => roomFor deflate x.2.1 x.2.2).sum < 2 ^ 31 →
    addFiles deflate files (archiveOf b!"Modelica_archive" es) = (r, true) →
    r = archiveOf b!"Modelica_archive" (es ++ files.map fun x => entryOf deflate x.1 x.2.1 x.2.2) ∧
      Fits b!"Modelica_archive" (es ++ files.map fun x => entryOf deflate x.1 x.2.1 x.2.2)
  | [], es, r, hF, _, _, h => by
    simp only [addFiles, Prod.mk.injEq, and_true] at h
    simp [← h, hF]
  | (io, name, data) :: files, es, r, hF, hst, hs, h => by
    unfold addFiles at h
    split at h
    · simp at h
    · rename_i new h1
      simp only [List.map_cons, List.sum_cons] at hs
      obtain ⟨g1, g2⟩ := addInPlace_zip hF (fun f hf => hst _ List.mem_cons_self _
        (by rw [archiveOf_length hf]; omega)) h1
      subst g1
      obtain ⟨k1, k2⟩ := addFiles_zip files _ r g2 (fun x hx => hst x (List.mem_cons_of_mem _ hx))
        (by rw [zipLen_append]; omega) h
      simp only [List.append_assoc, List.cons_append, List.nil_append] at k1 k2
      exact ⟨k1, k2⟩

theorem archiveName_ok {n : Bytes} (h : ArchiveName n) : zipNameOk n = true ∧ n.getLast? ≠ some 47 := by
  obtain ⟨-, h1, h2, h3, h4⟩ := h
  refine ⟨?_, ?_⟩
  · unfold zipNameOk
    rw [Bool.and_eq_true, List.all_eq_true]
    refine ⟨?_, ?_⟩
    · cases n with
      | nil => simp
      | cons c r =>
        have : c ≠ 47 := fun hc => h3 r (by rw [hc])
        simp [this]
    · intro c hc
      have a : c ≠ 92 := fun e => h1 (e ▸ hc)
      have b : c ≠ 58 := fun e => h2 (e ▸ hc)
      simp [a, b]
  · intro hl
    obtain ⟨r, hr⟩ := List.getLast?_eq_some_iff.1 hl
    exact h4 r hr

theorem entry_fine {inflate : Bytes → Option Bytes} {deflate : Bytes → List Bytes} (h : Restores inflate deflate)
    (hi : inflate [] = none) (io : ZipIo) {name data : Bytes} (hn : name.length ≤ 65535) (hd : data.length < 0xFFFFFFFF)
    (hc : (packed deflate data).length < 0xFFFFFFFF) : (entryOf deflate io name data).Fine := by
  refine ⟨hn, ?_, ?_, ?_, hd, hc⟩
  · simp only [entryOf, methodOf, packed]
    split <;> simp
  · simp only [entryOf, methodOf]
    split <;> simp
  · simp only [entryOf, packed]
    intro hne
    split
    · exact hne
    · rename_i hl
      intro h0
      have := h data (by omega)
      rw [h0, hi] at this
      cases this

theorem addFiles_ok {inflate : Bytes → Option Bytes} {deflate : Bytes → List Bytes} (hr : Restores inflate deflate)
    (hi : inflate [] = none) : ∀ (files : List (ZipIo × Bytes × Bytes)) (es : List ZEntry),
    Fits b!"Modelica_archive" es → (∀ e ∈ es, e.Fine) → (∀ x ∈ files, StatSmall x.1 ∧ AllWell x.1) →
    (∀ x ∈ files, ArchiveName x.2.1 ∧ x.2.2.length < 0xFFFFFFFF) → es.length + files.length < 19280 →
    zipLen b!"Modelica_archive" es + (files.map fun x => roomFor deflate x.2.1 x.2.2).sum < 80000000 →
    ∃ r, addFiles deflate files (archiveOf b!"Modelica_archive" es) = (r, true)
  | [], es, _, _, _, _, _, _ => ⟨_, rfl⟩
  | (io, name, data) :: files, es, hF, hf, hst, hn, hc, hs => by
    simp only [List.map_cons, List.sum_cons, List.length_cons] at hs hc
    obtain ⟨hst1, hw1⟩ := hst _ List.mem_cons_self
    obtain ⟨hn1, hd1⟩ := hn _ List.mem_cons_self
    obtain ⟨hn2, hn3⟩ := archiveName_ok hn1
    have hroom := entry_room deflate io name data 0
    rw [record_length, central_length] at hroom
    simp only [entryOf] at hroom
    have hz : zipLen b!"Modelica_archive" es = (bodyOf es).length + (dirFrom b!"Modelica_archive" 0 es).length + 22 := rfl
    simp only at hn1 hd1 hn2 hn3
    obtain ⟨r, h1⟩ := addInPlace_ok (deflate := deflate) (io := io) (comment := b!"Modelica_archive") (name := name)
      (data := data) hw1 hF hf (by omega)
      (fun f hf => by rw [archiveOf_length hf]; exact ⟨hst1 _ (by omega), by omega⟩) (by omega) hn2 hn1.1
      (fun h => hn3 h.1) (by omega)
    obtain ⟨g1, g2⟩ := addInPlace_zip hF (fun f hf => hst1 _ (by rw [archiveOf_length hf]; omega)) h1
    subst g1
    obtain ⟨r', h2⟩ := addFiles_ok hr hi files _ g2
      (fun e he => by
        rcases List.mem_append.1 he with he | he
        · exact hf e he
        · rw [List.mem_singleton.1 he]
          exact entry_fine hr hi io hn1.1 hd1 (by omega))
      (fun x hx => hst x (List.mem_cons_of_mem _ hx)) (fun x hx => hn x (List.mem_cons_of_mem _ hx))
      (by simp; omega) (by rw [zipLen_append]; omega)
    exact ⟨r', by rw [addFiles, h1]; exact h2⟩

end Semla
