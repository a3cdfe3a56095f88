import Verif.Lemmas.EndToEnd
import Verif.Props.Tool

/-!
# Properties of both programs together

C28, C56.
-/

set_option linter.unusedSimpArgs false

namespace Semla.Props

open Semla Semla.Spec

/-- One file request, after any session so far. -/
theorem fetch_one {conf : LveConf} (hgood : GoodConf conf) {jobs : List Job} {outs : List (Bytes × Bytes)}
    {base : Bytes} {read : Bytes → Option Bytes} (hP : Packaged conf.keyLen jobs)
    (henc : encryptAll ⟨conf.C, conf.key, conf.keyLen, base, read⟩ [] jobs = .ok (some outs))
    (hne : ∀ j ∈ jobs, j.isPackage → j.plain ≠ []) {root : Bytes} (hrl : root.length ≤ 16000)
    (hroot : cstr root = root)
    (hsz : SizesOk ⟨conf.C, conf.key, conf.keyLen, root, read⟩ jobs)
    {k : Option Bytes} {turns : List (World × Bytes)} {st : LveSt} {replies : List (List Bytes)}
    (hses : Session conf k turns st replies) (ha : st.approved = true) (hl : st.libpath = some root)
    (ht : ∀ t ∈ turns, Ample t.1 ∧ Serves t.1 root outs ∧ Honest jobs t.2)
    {w : World} (hw : Ample w) (hsv : Serves w root outs) {p content : Bytes} (hp : p.length ≤ 16000)
    (hwant : Wanted jobs root w p content) :
    ∃ t r, lveStep conf w st (line2 b!"FILE" (decNat p.length) ++ p) = .ok ({ st with cr := t }, [r]) ∧
      DataReply b!"FILECONT" content r ∧ content.length < 2 ^ 63 ∧ cstr p = p ∧
      Honest jobs (line2 b!"FILE" (decNat p.length) ++ p) := by
  have hc : Carries (line2 b!"FILE" (decNat p.length) ++ p) .file p := carries_sent (c := .file) rfl (by omega)
  cases hwant with
  | @source j hj hm =>
    have hcp : cstr (j.path ++ b!"c") = j.path ++ b!"c" := cstr_of_noNul (job_path_no_nul hP hj)
    obtain ⟨t, r, h1, h2⟩ := c17_library hgood hP henc hne (by omega) (by rw [hroot]; exact hsz) hses ha hl
      (by rw [hroot]; exact ht) hw (by rw [hroot]; exact hsv) hj hm hc (by simp at hp; omega)
    exact ⟨some t, r, h1, h2, by have := (hsz j hj).2; omega, hcp, honest_sent (by omega) fun _ => ⟨j, hj, hcp⟩⟩
  | other h0 hm hh hcl =>
    have hcp : cstr p = p := cstr_of_noNul fun b hb h => h0 (h ▸ hb)
    obtain ⟨r, h1, h2⟩ := c17_plain hses ha hl hw hc (by omega) (by rw [hcp]; exact hm)
      (by rw [hroot, hcp]; exact hh) hcl
    exact ⟨st.cr, r, h1, h2, hcl, hcp, honest_sent (by omega) fun h => absurd (hcp ▸ h) hm⟩

/-- What a client asks for, in which world: the library is in place, and the file is there. -/
structure Request (jobs : List Job) (outs : List (Bytes × Bytes)) (root : Bytes) (q : World × Bytes × Bytes) :
    Prop where
  ample : Ample q.1
  installed : Serves q.1 root outs
  short : q.2.1.length ≤ 16000
  wanted : Wanted jobs root q.1 q.2.1 q.2.2

theorem fetch_many {conf : LveConf} (hgood : GoodConf conf) {jobs : List Job} {outs : List (Bytes × Bytes)}
    {base : Bytes} {read : Bytes → Option Bytes} (hP : Packaged conf.keyLen jobs)
    (henc : encryptAll ⟨conf.C, conf.key, conf.keyLen, base, read⟩ [] jobs = .ok (some outs))
    (hne : ∀ j ∈ jobs, j.isPackage → j.plain ≠ []) {root : Bytes} (hrl : root.length ≤ 16000)
    (hroot : cstr root = root)
    (hsz : SizesOk ⟨conf.C, conf.key, conf.keyLen, root, read⟩ jobs) {k : Option Bytes}
    (reqs : List (World × Bytes × Bytes)) (hreqs : ∀ q ∈ reqs, Request jobs outs root q)
    {turns : List (World × Bytes)} {st : LveSt} {replies : List (List Bytes)}
    (hses : Session conf k turns st replies) (ha : st.approved = true) (hl : st.libpath = some root)
    (ht : ∀ t ∈ turns, Ample t.1 ∧ Serves t.1 root outs ∧ Honest jobs t.2) :
    ∃ sent got st', lveRun conf st (reqs.map (·.1) |>.zip sent) = .ok (st', got.map fun r => [r]) ∧
      sent.length = reqs.length ∧ (∀ m ∈ sent, m ≠ [] ∧ m.length ≤ 16384) ∧ (∀ r ∈ got, r ≠ []) ∧
      ∀ evs rest wevs after wire, ArriveAll evs got rest → WritesAll reqs.length wevs after →
        ∃ fs, fetchFiles (reqs.map (·.2.1)) ⟨fresh evs, wevs, wire⟩ =
            .ok (some fs, ⟨fresh rest, after, wire ++ sent⟩) ∧
          List.Forall₂ Fetched fs (reqs.map (·.2.2)) := by
  induction reqs generalizing turns st replies with
  | nil =>
    refine ⟨[], [], st, rfl, rfl, by simp, by simp, ?_⟩
    intro evs rest wevs after wire h1 h2
    cases h1; cases h2
    exact ⟨[], by simp [fetchFiles], .nil⟩
  | cons q qs ih =>
    obtain ⟨w, p, content⟩ := q
    obtain ⟨hw, hsv, hp, hwant⟩ := hreqs (w, p, content) (by simp)
    simp only at hw hsv hp hwant
    obtain ⟨t, r, h1, h2, h3, hcp, h4⟩ := fetch_one hgood hP henc hne hrl hroot hsz hses ha hl ht hw hsv hp hwant
    obtain ⟨sent, got, st', h5, h6, h7, h7', h8⟩ := ih (fun q hq => hreqs q (by simp [hq])) (session_snoc hses h1) ha hl
      (by
        intro t ht'
        rcases List.mem_append.1 ht' with h | h
        · exact ht t h
        · simp at h; subst h; exact ⟨hw, hsv, h4⟩)
    refine ⟨(line2 b!"FILE" (decNat p.length) ++ p) :: sent, r :: got, st', ?_, by simp [h6], ?_, ?_, ?_⟩
    · simp only [List.map_cons, List.zip_cons_cons, lveRun, h1, Res.bind_ok, h5]
    · intro m hm
      rcases List.mem_cons.1 hm with rfl | hm
      · exact ⟨by simp [line2], sent_length (c := .file) hp⟩
      · exact h7 m hm
    · intro r' hr
      rcases List.mem_cons.1 hr with rfl | hr
      · obtain ⟨ds, -, rfl⟩ := h2
        simp [line2]
      · exact h7' r' hr
    · intro evs rest wevs after wire ha1 hw1
      cases ha1 with
      | cons ha1 ha2 =>
        cases hw1 with
        | cons hw1 hw2 =>
          obtain ⟨fs, h9, h10⟩ := h8 _ _ _ _ (wire ++ [line2 b!"FILE" (decNat p.length) ++ p]) ha2 hw2
          have hf := file_ok wire (arrives_data (c := .fileCont) rfl h2 h3 ha1) hw1 (path := p)
            (by rw [hcp]; omega)
          rw [hcp] at hf
          refine ⟨⟨content.length, 0, some ⟨content.map some ++ [some 0]⟩⟩ :: fs, ?_, .cons ⟨[some 0], rfl⟩ h10⟩
          simp only [List.map_cons, fetchFiles, hf, Res.bind_ok, h9]
          simp

/-- **C28.** Let a library (with package files first and not empty, every directory with one) be encrypted and
installed, with any other files beside it.  A tool whose key is trusted opens it, there being a license, and
asks for any number of its files, encrypted or not.  Then the messages the tool sends, arriving at the
executable one per record, are answered by one reply each; and however these replies are cut into records
(after their first 100 bytes) and however often reads and writes have to be repeated, all calls of the tool
succeed, having sent these messages, and the contents it gets are exactly the texts of the source files and
the contents of the other files. -/
theorem c28_delivery {conf : LveConf} (hgood : GoodConf conf) {jobs : List Job} {outs : List (Bytes × Bytes)}
    {base : Bytes} {read : Bytes → Option Bytes} (hP : Packaged conf.keyLen jobs)
    (henc : encryptAll ⟨conf.C, conf.key, conf.keyLen, base, read⟩ [] jobs = .ok (some outs))
    (hne : ∀ j ∈ jobs, j.isPackage → j.plain ≠ [])
    {lib root : Bytes} (hlib : IsRootOf lib root) (hnul : (0 : UInt8) ∉ lib) (hll : lib.length ≤ 16000)
    (hsz : SizesOk ⟨conf.C, conf.key, conf.keyLen, root, read⟩ jobs) (hlic : Licensed conf root)
    {key : Bytes} (hkey : key ∈ conf.trusted) (hk0 : (0 : UInt8) ∉ key)
    (hks : ∀ t ∈ conf.trusted, (0 : UInt8) ∉ t)
    {minV maxV : Int} (hmin : minV ≤ 1) (hmax : 1 ≤ maxV) (hint : maxV < 2 ^ 31)
    {w0 w1 : World} (hw0 : Ample w0) (hi0 : Serves w0 root outs) (hw1 : Ample w1) (hi1 : Serves w1 root outs)
    (hdir : w1.stat root = some true)
    {reqs : List (World × Bytes × Bytes)} (hreqs : ∀ q ∈ reqs, Request jobs outs root q) :
    GetsAll conf key minV maxV lib w0 w1 reqs := by
  have hlong : maxV ≤ longMax := by unfold longMax; omega
  obtain ⟨st0, hs0, happ⟩ := c16_approved_iff conf key hk0 hks
  have hst0 : st0 = { LveSt.initial with approved := true } := by
    rcases start_eq hs0 with h | h
    · exact h
    · have := happ.2 hkey
      rw [h] at this; cases this
  have hcr : cstr root = root := by
    refine cstr_of_noNul fun b hb h0 => hnul ?_
    obtain ⟨seps, rfl, -⟩ := hlib
    subst h0; simp [hb]
  have hcl : cstr lib = lib := cstr_of_noNul fun b hb h => hnul (h ▸ hb)
  have hrl : root.length ≤ 16000 := by
    obtain ⟨seps, rfl, -⟩ := hlib
    simp at hll; omega
  -- version
  have hacc : Accepts (sendNumber .version maxV) .version maxV 0 :=
    accepts_number_view rfl (by unfold longMin; omega) hlong (Or.inl rfl)
  have hv := (c14_lve_version (conf := conf) hw0 (st := st0) (by rw [hst0]; rfl) hacc).1 hmax
  -- library
  have hcar : Carries (line2 b!"LIB" (decNat lib.length) ++ lib) .lib lib :=
    carries_sent (c := .lib) rfl (by omega)
  obtain ⟨st2, hl1, hl2, hl3⟩ := lib_step (conf := conf) (st := { st0 with proto := .tools }) hw1 hlib hnul hdir hlic
    hcar rfl (by rw [hst0]) (by rw [hst0]; rfl) (by rw [hst0]; rfl)
  have hses : Session conf (some key) [(w0, sendNumber .version maxV), (w1, line2 b!"LIB" (decNat lib.length) ++ lib)]
      st2 [[b!"VERSION 1\n"], [sendSimple .yes]] := by
    refine ⟨st0, hs0, ?_⟩
    simp only [lveRun, hv, hl1, Res.bind_ok]
  have hhl : Honest jobs (line2 b!"LIB" (decNat lib.length) ++ lib) :=
    honest_accepts (accepts_len (c := .lib) rfl (by omega) (Or.inl rfl)) (by decide)
  obtain ⟨sent, got, st, h1, h2, h3, h3', h4⟩ := fetch_many hgood hP henc hne hrl hcr hsz reqs hreqs hses hl2 hl3
    (by
      intro t ht
      simp only [List.mem_cons, List.not_mem_nil, or_false] at ht
      rcases ht with rfl | rfl
      · exact ⟨hw0, hi0, honest_accepts hacc (by decide)⟩
      · exact ⟨hw1, hi1, hhl⟩)
  have hgl : got.length = reqs.length := by
    have := run_length h1
    simpa [h2] using this
  refine ⟨sendNumber .version maxV :: (line2 b!"LIB" (decNat lib.length) ++ lib) :: sent,
    b!"VERSION 1\n" :: sendSimple .yes :: got, st0, st, ?_, hs0, ?_, by simp [hgl], ?_, ?_⟩
  · intro m hm
    rcases List.mem_cons.1 hm with rfl | hm
    · rw [send_number_aux _ _ (by unfold longMin; omega) hlong]
      refine ⟨by simp [line2], ?_⟩
      have := decNat_length_le (n := maxV.toNat) (by omega)
      have e : decInt maxV = decNat maxV.toNat := by
        unfold decInt
        rw [if_neg (by omega)]
        congr 1; omega
      simp [line2, e, CmdId.name]; omega
    · rcases List.mem_cons.1 hm with rfl | hm
      · exact ⟨by simp [line2], sent_length (c := .lib) hll⟩
      · exact h3 m hm
  · intro evs rest hd
    have hz : ((reqs.map (·.1)).zip sent).map (·.2) = sent := by
      rw [List.map_snd_zip]; simp [h2]
    have hz1 : ((reqs.map (·.1)).zip sent).map (·.1) = reqs.map (·.1) := by
      rw [List.map_fst_zip]; simp [h2]
    have := receive_run (conf := conf) ((w0, sendNumber .version maxV) ::
      (w1, line2 b!"LIB" (decNat lib.length) ++ lib) :: (reqs.map (·.1)).zip sent) (by
        intro t ht
        rcases List.mem_cons.1 ht with rfl | ht
        · exact hw0
        · rcases List.mem_cons.1 ht with rfl | ht
          · exact hw1
          · have hm := List.of_mem_zip (show (t.1, t.2) ∈ _ from ht)
            obtain ⟨q, hq, h⟩ := List.mem_map.1 hm.1
            rw [← h]; exact (hreqs q hq).ample)
      (evs := evs) (rest := rest) (by simpa [hz] using hd) st0
    have e : (((w0, sendNumber .version maxV) :: (w1, line2 b!"LIB" (decNat lib.length) ++ lib) ::
        (reqs.map (·.1)).zip sent).map fun t => (t.1, false)) =
        (w0 :: w1 :: reqs.map (·.1)).map fun w => (w, false) := by
      have : ((reqs.map (·.1)).zip sent).map (fun t => (t.1, false)) =
          (((reqs.map (·.1)).zip sent).map (·.1)).map fun w => (w, false) := by simp
      rw [List.map_cons, List.map_cons, this, hz1]
      rfl
    rw [e] at this
    rw [this]
    simp only [lveRun, hv, hl1, Res.bind_ok, h1, List.map_cons]
  · intro r hr
    simp only [List.mem_cons] at hr
    rcases hr with rfl | rfl | hr
    · decide
    · decide
    · exact h3' r hr
  · intro evs rest wevs after ha hwr
    cases ha with
    | cons ha1 ha2 =>
      cases ha2 with
      | cons ha2 ha3 =>
        cases hwr with
        | cons hwr1 hwr2 =>
          cases hwr2 with
          | cons hwr2 hwr3 =>
            have e1 := version_ok [] (arrives_version ha1) hwr1 hmin hmax hlong
            have e2 := libpath_ok [sendNumber .version maxV] (arrives_simple (c := .yes) rfl ha2) hwr2 (path := lib)
              (by rw [hcl]; omega)
            obtain ⟨fs, h5, h6⟩ := h4 _ _ _ _
              ([sendNumber .version maxV] ++ [line2 b!"LIB" (decNat lib.length) ++ lib]) ha3 hwr3
            refine ⟨fs, ?_, h6⟩
            rw [hcl] at e2
            unfold fetch
            rw [e1]
            simp only [Res.bind_ok, List.nil_append]
            rw [e2]
            simp only [Res.bind_ok]
            rw [h5]
            rfl

/-- Contents of what was fetched. -/
def contentsOf : Res (Option (List FileContents) × Tool) → Option (List (List (Option UInt8)) × List Bytes)
  | .ok (some fs, t) => some (fs.map fun f => ((f.buffer.map Buf.cells).getD []).take f.size, t.wire)
  | _ => none

-- a client that fetches an encrypted and a plain file, replies arriving in pieces
example : contentsOf (fetch 1 2 b!"/l/" [b!"A/x.moc", b!"icon.png"] ⟨fresh
      [.record b!"VERSION 1\n" [3], .wantRead, .record b!"YES\n" [], .record b!"FILECONT 14\nmod" [],
       .wantWrite, .record b!"el x end" [2, 2], .record b!" x;" [], .record b!"FILECONT 3\nPNG" []],
      [.written, .wantWrite, .written, .written, .written], []⟩) =
    some ([b!"model x end x;".map some, b!"PNG".map some],
      [b!"VERSION 2\n", b!"LIB 3\n/l/", b!"FILE 7\nA/x.moc", b!"FILE 8\nicon.png"]) := by decide +kernel
example : repliesOf (session (toyConf [b!"k"] none generous) (some b!"k") (inWorld lib2
      [b!"VERSION 2\n", b!"LIB 3\n/l/", b!"FILE 7\nA/x.moc", b!"FILE 8\nicon.png"])) =
    some [[b!"VERSION 1\n"], [b!"YES\n"], [b!"FILECONT 14\nmodel x end x;"], [b!"FILECONT 3\nPNG"]] := by
  decide +kernel

theorem lib2_serves : Serves lib2 b!"/l" (outsOf (toyEnv []) exLib) := by
  have : ∀ o ∈ outsOf (toyEnv []) exLib,
      lib2.files (b!"/l" ++ b!"/" ++ o.1) = .stream o.2.length o.2 none := by decide +kernel
  intro o ho
  exact ⟨_, _, _, this o ho, by simp, Or.inl rfl⟩

-- the hypotheses of `c28_delivery` hold for these requests
example : Request exLib (outsOf (toyEnv []) exLib) b!"/l" (lib2, b!"A/x.moc", b!"model x end x;") ∧
    Request exLib (outsOf (toyEnv []) exLib) b!"/l" (lib2, b!"icon.png", b!"PNG") := by
  constructor
  · refine ⟨roomy_ample _ _, lib2_serves, by decide, ?_⟩
    exact .source (j := ⟨[b!"A"], b!"x.mo", toyIv, toyMask 0, b!"model x end x;"⟩) (by simp [exLib])
      ⟨b!"A/x", b!"moc", by decide, by decide, by decide, by decide, by decide⟩
  · refine ⟨roomy_ample _ _, lib2_serves, by decide, ?_⟩
    refine .other (by decide) ?_ ⟨3, b!"PNG", none, by decide +kernel, by decide, Or.inl rfl⟩ (by decide)
    rw [← isEncryptedName_iff]
    decide
example : GoodConf (toyConf [b!"k"] (some b!"G") generous) ∧
    Packaged (toyConf [b!"k"] (some b!"G") generous).keyLen exLib ∧
    encryptAll ⟨(toyConf [b!"k"] (some b!"G") generous).C, (toyConf [b!"k"] (some b!"G") generous).key,
      (toyConf [b!"k"] (some b!"G") generous).keyLen, (toyEnv []).basedir, (toyEnv []).read⟩ [] exLib =
      .ok (some (outsOf (toyEnv []) exLib)) ∧
    (∀ j ∈ exLib, j.isPackage → j.plain ≠ []) ∧ IsRootOf b!"/l/" b!"/l" ∧
    Licensed (toyConf [b!"k"] (some b!"G") generous) b!"/l" ∧ lib2.stat b!"/l" = some true := by
  refine ⟨⟨(toyEnv_good []).crypto, by decide, by decide⟩, exLib_packaged, by decide +kernel, ?_,
    ⟨b!"/", by decide, ?_, by decide, Or.inr ?_⟩, Or.inr ⟨b!"G", rfl, rfl, rfl⟩, by decide +kernel⟩
  · intro j hj; simp only [exLib, List.mem_cons, List.not_mem_nil, or_false] at hj
    rcases hj with rfl | rfl | rfl <;> simp
  · intro b hb; simp at hb; subst hb; exact Or.inl rfl
  · intro b hb; simp at hb; subst hb; unfold IsSep; decide

/-! ## C56 -/

/-- What the caller of a tool call learns about the license manager's answer `a` to the last call made,
`last`: success exactly if the manager granted the request; otherwise its message, behind a preamble unless it
is a checkout that was refused, which has its own code. -/
def Told (last : LicCall) (a : LicAnswer) (out : ToolOut Unit) : Prop :=
  match a, last with
  | .success, _ => out = .success () (some none)
  | .failure (some m), .checkout _ => out = .failed (some (some ⟨2, 3, some ((cstr m).take 2047)⟩))
  | .failure (some m), _ => out = .failed (some (some
      ⟨2, 1, some ((b!"Got ERROR command with message: " ++ cstr m).take 2047)⟩))
  | .failure none, _ => False

theorem _root_.Semla.Spec.DataReply.ne_nil {name d r : Bytes} (h : DataReply name d r) : r ≠ [] := by
  obtain ⟨ds, -, rfl⟩ := h
  simp [line2]

theorem _root_.Semla.Spec.ErrorReply.ne_nil {code : Nat} {text r : Bytes} (h : ErrorReply code text r) : r ≠ [] := by
  obtain ⟨cs, ds, -, -, rfl⟩ := h
  simp [line3]

/-- **C56, checking a feature out.** In a session past LIB, with a license manager that never refuses without
a message: asked to check a feature out, the tool sends FEATURE with its name, which the executable answers by one reply;
however this arrives, the tool's caller learns exactly what the license manager answered last, be it to the
checkout of this feature or to the creation of a manager. -/
theorem c56_feature {conf : LveConf} (hpol : Polite conf) {st : LveSt} (hp : st.proto = .license)
    {w : World} (hw : Ample w) {f : Bytes} (hf : (0 : UInt8) ∉ f) (hfl : f.length < 2 ^ 62) :
    ∃ msg r st' last, DataReply b!"FEATURE" f msg ∧ lveStep conf w st msg = .ok (st', [r]) ∧ r ≠ [] ∧
      st'.calls.getLast? = some last ∧
      (last = .checkout f ∨ last = .new (st.libpath.map cstr) ∧ conf.licenseManager st'.calls ≠ .success) ∧
      ∀ evs rest wevs after wire, Arrives evs r rest → Writes wevs after →
        ∃ out, toolFeature (fun _ => true) ⟨fresh evs, wevs, wire⟩ f (some none) =
            .ok (out, ⟨fresh rest, after, wire ++ [msg]⟩) ∧
          Told last (conf.licenseManager st'.calls) out := by
  have hcf : cstr f = f := cstr_of_noNul fun b hb h => hf (h ▸ hb)
  have hsent : DataReply b!"FEATURE" f (line2 b!"FEATURE" (decNat f.length) ++ f) := ⟨_, decNat_numeral _, rfl⟩
  have hc : Carries (line2 b!"FEATURE" (decNat f.length) ++ f) .feature f :=
    carries_sent (c := .feature) rfl (by omega)
  have hex : ∃ st' out, lveStep conf w st (line2 b!"FEATURE" (decNat f.length) ++ f) = .ok (st', out) := by
    obtain ⟨⟨s, o, ok⟩, h, -⟩ := feature_defined hpol hw st f .feature
    rw [step_forward (next := .license) hw rfl hc (by rw [hp]; rfl)]
    unfold dispatch
    rw [hp]
    simp only [if_true, h, Res.bind_ok]
    exact ⟨_, _, rfl⟩
  obtain ⟨st', out, hs⟩ := hex
  have hlen : ∀ {m : Option Bytes} {cs}, conf.licenseManager cs = .failure m → ∀ t, m = some t →
      (cstr t).length < 2 ^ 63 := by
    intro m cs h t ht
    obtain ⟨t', h1, h2⟩ := hpol _ _ h
    rw [ht] at h1; cases h1
    exact Nat.lt_of_le_of_lt (cstr_length_le t) h2
  rcases c20_feature hw hp hc hs with ⟨m, r, h1, h2, h3, rfl, h4⟩ | ⟨pre, h1, -, ⟨h3, rfl⟩ | ⟨m, r, h3, rfl, h4⟩⟩
  · refine ⟨_, r, st', _, hsent, hs, h4.ne_nil, by rw [h2]; simp, Or.inr ⟨rfl, by rw [h3]; simp⟩, ?_⟩
    intro evs rest wevs after wire ha hwr
    have := (feature_ok wire (arrives_error (by decide) h4 (hlen h3 _ rfl) ha) hwr (f := f) (by rw [hcf]; omega)).2.2 rfl
    rw [hcf] at this
    refine ⟨_, this, ?_⟩
    rw [h3]
    simp [Told, errorGot, cstr_idem]
  · refine ⟨_, _, st', .checkout f, hsent, hs, by simp, by rw [h1]; simp, Or.inl rfl, ?_⟩
    intro evs rest wevs after wire ha hwr
    have := (feature_ok wire (arrives_simple (c := .yes) rfl ha) hwr (f := f) (by rw [hcf]; omega)).1 rfl
    rw [hcf] at this
    refine ⟨_, this, ?_⟩
    rw [h3]; rfl
  · refine ⟨_, r, st', .checkout f, hsent, hs, h4.ne_nil, by rw [h1]; simp, Or.inl rfl, ?_⟩
    intro evs rest wevs after wire ha hwr
    have := (feature_ok wire (arrives_data (c := .no) rfl h4 (hlen h3 _ rfl) ha) hwr (f := f)
      (by rw [hcf]; omega)).2.1 rfl
    rw [hcf] at this
    refine ⟨_, this, ?_⟩
    rw [h3]
    simp [Told, cstr_idem]

-- the refusal of C20's example, as the tool's caller sees it
example : toolFeature (fun _ => true) ⟨fresh [.record b!"NO 6\nden" [], .record b!"ied" [1]], [.written], []⟩ b!"g"
    (some none) = .ok (.failed (some (some ⟨2, 3, some b!"denied"⟩)), ⟨fresh [], [], [b!"FEATURE 1\ng"]⟩) := by
  decide +kernel
example : Polite (toyConf [b!"k"] none grudging) := by
  intro calls m h
  simp only [toyConf, grudging] at h
  split at h
  · split at h
    · cases h
    · cases h; exact ⟨_, rfl, by decide⟩
  · cases h
example : (stateOf (session (toyConf [b!"k"] none grudging) (some b!"k") (inWorld lib1
    [b!"VERSION 1\n", b!"LIB 2\n/l"]))).map (·.proto) = some .license := by decide +kernel

/-- **C56, returning a feature.** -/
theorem c56_returnfeature {conf : LveConf} (hpol : Polite conf) {st : LveSt} (hp : st.proto = .license)
    {w : World} (hw : Ample w) {f : Bytes} (hf : (0 : UInt8) ∉ f) (hfl : f.length < 2 ^ 62) :
    ∃ msg r st' last, DataReply b!"RETURNFEATURE" f msg ∧ lveStep conf w st msg = .ok (st', [r]) ∧ r ≠ [] ∧
      st'.calls.getLast? = some last ∧
      (last = .checkin f ∨ last = .new (st.libpath.map cstr) ∧ conf.licenseManager st'.calls ≠ .success) ∧
      ∀ evs rest wevs after wire, Arrives evs r rest → Writes wevs after →
        ∃ out, toolReturnFeature (fun _ => true) ⟨fresh evs, wevs, wire⟩ f (some none) =
            .ok (out, ⟨fresh rest, after, wire ++ [msg]⟩) ∧
          Told last (conf.licenseManager st'.calls) out := by
  have hcf : cstr f = f := cstr_of_noNul fun b hb h => hf (h ▸ hb)
  have hsent : DataReply b!"RETURNFEATURE" f (line2 b!"RETURNFEATURE" (decNat f.length) ++ f) := ⟨_, decNat_numeral _, rfl⟩
  have hc : Carries (line2 b!"RETURNFEATURE" (decNat f.length) ++ f) .returnFeature f :=
    carries_sent (c := .returnFeature) rfl (by omega)
  have hex : ∃ st' out, lveStep conf w st (line2 b!"RETURNFEATURE" (decNat f.length) ++ f) = .ok (st', out) := by
    obtain ⟨⟨s, o⟩, h, -⟩ := returnFeature_defined hpol hw st f .returnFeature
    rw [step_forward (next := .license) hw rfl hc (by rw [hp]; rfl)]
    unfold dispatch
    rw [hp]
    simp only [reduceCtorEq, if_false, if_true, h, Res.bind_ok]
    exact ⟨_, _, rfl⟩
  obtain ⟨st', out, hs⟩ := hex
  have hlen : ∀ {m : Option Bytes} {cs}, conf.licenseManager cs = .failure m → ∀ t, m = some t →
      (cstr t).length < 2 ^ 63 := by
    intro m cs h t ht
    obtain ⟨t', h1, h2⟩ := hpol _ _ h
    rw [ht] at h1; cases h1
    exact Nat.lt_of_le_of_lt (cstr_length_le t) h2
  have hno : ∀ {evs rest : List Ev} {wevs after : List WEv} {wire : List Bytes} {r m : Bytes} {cs : List LicCall},
      conf.licenseManager cs = .failure (some m) → ErrorReply 7 (cstr m) r → Arrives evs r rest →
      Writes wevs after →
      toolReturnFeature (fun _ => true) ⟨fresh evs, wevs, wire⟩ f (some none) =
        .ok (.failed (some (some (errorGot (cstr m)))), ⟨fresh rest, after,
          wire ++ [line2 b!"RETURNFEATURE" (decNat f.length) ++ f]⟩) := by
    intro evs rest wevs after wire r m cs h3 h4 ha hwr
    have := (expectYes_ok (c := .returnFeature) wire (arrives_error (by decide) h4 (hlen h3 _ rfl) ha) hwr (f := f)
      (by rw [hcf]; omega)).2 rfl
    rw [hcf] at this
    exact this
  rcases c20_returnfeature hw hp hc hs with ⟨m, r, h1, h2, h3, rfl, h4⟩ |
    ⟨pre, h1, -, ⟨h3, rfl⟩ | ⟨m, r, h3, rfl, h4⟩⟩
  · refine ⟨_, r, st', _, hsent, hs, h4.ne_nil, by rw [h2]; simp, Or.inr ⟨rfl, by rw [h3]; simp⟩, ?_⟩
    intro evs rest wevs after wire ha hwr
    refine ⟨_, hno h3 h4 ha hwr, ?_⟩
    rw [h3]
    simp [Told, errorGot, cstr_idem]
  · refine ⟨_, _, st', .checkin f, hsent, hs, by simp, by rw [h1]; simp, Or.inl rfl, ?_⟩
    intro evs rest wevs after wire ha hwr
    have := (expectYes_ok (c := .returnFeature) wire (arrives_simple (c := .yes) rfl ha) hwr (f := f)
      (by rw [hcf]; omega)).1 rfl
    rw [hcf] at this
    refine ⟨_, this, ?_⟩
    rw [h3]; rfl
  · refine ⟨_, r, st', .checkin f, hsent, hs, h4.ne_nil, by rw [h1]; simp, Or.inl rfl, ?_⟩
    intro evs rest wevs after wire ha hwr
    refine ⟨_, hno h3 h4 ha hwr, ?_⟩
    rw [h3]
    simp [Told, errorGot, cstr_idem]

end Semla.Props
