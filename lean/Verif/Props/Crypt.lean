import Verif.Lemmas.CrHist

/-!
# Properties of encryption and decryption: C30 – C37, C52

Vocabulary (`Encrypted`, `Packaged`, `MaskInForce`, `KeyOf`, ...) is defined in
`Verif/Spec/Crypt.lean`.  The primitives are arbitrary functions satisfying `Crypto.Good`.
-/

set_option linter.unusedSimpArgs false

namespace Semla.Props

open Semla Semla.Spec

/-! ## A toy cipher for the examples

Blocks are rotated and every byte is shifted by the first key byte; the MAC is a repeated sum. -/

def toyEnc (k b : Bytes) : Bytes := (b.map (· + k.headD 0)).reverse
def toyDec (k b : Bytes) : Bytes := b.reverse.map (· - k.headD 0)
def toyMac (k m : Bytes) : Bytes := List.replicate 32 ((k ++ m).foldl (fun a c => a + a + a + c) 0)

def toy : Crypto := ⟨toyEnc, toyDec, toyMac⟩

theorem toy_good : toy.Good where
  enc_length k b h := by simp [toy, toyEnc, h]
  dec_length k b h := by simp [toy, toyDec, h]
  dec_enc k b _ := by
    simp only [toy, toyDec, toyEnc, List.reverse_reverse, List.map_map]
    rw [show ((fun x => x - k.headD 0) ∘ fun x => x + k.headD 0) = id from by
      funext x; simp]
    simp
  mac_length k m := by simp [toy, toyMac]

/-- A context over a given set of files below `/l`. -/
def toyEnv (files : List (Bytes × Bytes)) : CrEnv :=
  ⟨toy, (List.range 32).map UInt8.ofNat, 32, b!"/l", fun q =>
    (files.find? fun f => b!"/l/" ++ f.1 == q).map (·.2)⟩

theorem toyEnv_good (files : List (Bytes × Bytes)) : GoodEnv (toyEnv files) :=
  ⟨toy_good, by simp [toyEnv], by simp [toyEnv]⟩

/-- The encrypted files of a library, for the examples. -/
def outsOf (e : CrEnv) (jobs : List Job) : List (Bytes × Bytes) :=
  match encryptAll e [] jobs with
  | .ok (some o) => o
  | _ => []

def toyIv : Bytes := List.replicate 16 7
def toyMask (n : Nat) : Bytes := (List.range 32).map fun i => UInt8.ofNat (i * n + n)

/-! ## C30 -/

/-- **C30.** A file encrypted in a fresh context under a plain name is decrypted, without a context,
to exactly its contents: for every content that an `int` can count, every name other than
`package.mo`, every IV and key. -/
theorem c30_round_trip (e : CrEnv) (he : GoodEnv e) (name iv plain : Bytes) (hn : IsName name)
    (hp : ¬ eqNoCase b!"package.mo" name) (hiv : iv.length = 16) (rand : Bytes → Bytes)
    (hlen : plain.length + 96 < 2 ^ 31) :
    ∃ t out, crEncrypt e [] name iv rand plain false (fun _ => true) = .ok (t, out, true) ∧
      crDecryptNoContext e out = .ok ((plain.length : Int), plain) := by
  have hname : lastSlash name = 0 := lastSlash_name name hn
  have hz : e.mask e.key (List.replicate e.keyLen 0) = e.key := by
    unfold CrEnv.mask
    rw [xorBytes_zero _ _ (by simp), List.take_append_drop]
  obtain ⟨ws, h1, h2⟩ := encBody_spec e he e.key iv plain hiv 0 [] (by simp)
  simp only [ne_eq, not_true_eq_false, if_false, List.append_nil] at h2
  refine ⟨[(b!"/", List.replicate e.keyLen 0)], iv ++ ws.flatten, ?_, ?_⟩
  · simp [crEncrypt, maskKey, fileName, dirKey, hname, hp, MaskTable.find, addItem, hz, h1,
      runWrites_all]
  · have hl := encrypted_length he.crypto hiv h2
    have := decryptTail_encrypted e he [] [] e.key iv plain _ hiv 0 h2 (by rw [hl]; omega)
    simp [crDecryptNoContext, this]

/-- **C30, portions.** Whatever portions the contents arrive in, the cipher produces the same file. -/
theorem c30_chunking (C : Crypto) (hC : C.Good) (key macKey iv : Bytes) (hiv : iv.length = 16)
    (chunks : List Bytes) :
    Encrypted C key macKey iv chunks.flatten
      (iv ++ feed C key ⟨iv, []⟩ chunks ++ C.mac macKey (iv ++ chunks.flatten)) := by
  simpa using feed_encrypted hC key macKey iv hiv [] [] ⟨iv, []⟩ (streamInv_init C key iv) chunks

/-- **C30, layout determines the contents.** Decryption under the right key of anything with the
layout of an encrypted file gives back the payload. -/
theorem c30_layout_inverse (e : CrEnv) (he : GoodEnv e) (iv payload content : Bytes)
    (hiv : iv.length = 16) (h : Encrypted e.C e.key (e.key.take e.keyLen) iv payload content)
    (hlen : content.length < 2 ^ 31) :
    crDecryptNoContext e content = .ok ((payload.length : Int), payload) := by
  have := decryptTail_encrypted e he [] [] e.key iv payload _ hiv 0 h hlen
  simp [crDecryptNoContext, this]

-- 300 bytes, so that more than one read portion is involved
example : ∃ t out, crEncrypt (toyEnv []) [] b!"x.mo" toyIv (fun _ => []) (List.replicate 300 65) false
    (fun _ => true) = .ok (t, out, true) ∧
    crDecryptNoContext (toyEnv []) out =
      .ok (((List.replicate 300 65 : Bytes).length : Int), List.replicate 300 65) :=
  c30_round_trip (toyEnv []) (toyEnv_good []) b!"x.mo" toyIv (List.replicate 300 65)
    (by constructor <;> decide) (by decide) (by decide) (fun _ => [])
    (by rw [List.length_replicate]; omega)

/-! ## C31 -/

/-- **C31.** Encryption never leaves its buffers, for any contents, path, table, read error and write
errors; and if it reports success, the file is IV, ciphertext of the payload padded to the next
multiple of 16, and MAC, with the size stated.  The payload is the contents; for a package file the
contents and the key mask. -/
theorem c31_layout (e : CrEnv) (he : GoodEnv e) (t : MaskTable) (p iv : Bytes) (hiv : iv.length = 16)
    (rand : Bytes → Bytes) (hr : ∀ d, (rand d).length = e.keyLen) (inp : Bytes) (bad : Bool)
    (wOk : Nat → Bool) :
    ∃ t' out ok, crEncrypt e t p iv rand inp bad wOk = .ok (t', out, ok) ∧
      (ok = true → ∃ key payload, Encrypted e.C key (key.take e.keyLen) iv payload out ∧
        payload = inp ++ (if eqNoCase b!"package.mo" (fileName p) then rand (dirKey p) else []) ∧
        out.length = 16 + 16 * (payload.length / 16 + 1) + 32) := by
  obtain ⟨t', out, ok, h1, h2⟩ := crEncrypt_spec e he t p iv hiv rand hr inp bad wOk
  refine ⟨t', out, ok, h1, fun h => ?_⟩
  obtain ⟨-, key, h3⟩ := h2 h
  refine ⟨key, _, h3, ?_, encrypted_length he.crypto hiv h3⟩
  split <;> simp

/-- **C31, output buffer.** Decryption never produces more bytes than it was given, and never returns
more than it produced or less than -1. -/
theorem c31_decrypt_output (e : CrEnv) (he : GoodEnv e) (t t' : MaskTable) (p content out : Bytes)
    (n : Int) (h : crDecrypt e t p content = .ok (t', n, out)) :
    out.length ≤ content.length ∧ -1 ≤ n ∧ n ≤ out.length := by
  unfold crDecrypt at h
  rw [Res.bind_eq_ok] at h
  obtain ⟨⟨t1, key, flag⟩, -, h⟩ := h
  exact decryptTail_out_length he h

-- 16 + 16 * 3 + 32 bytes for 40 bytes of contents
example : ∃ t out, crEncrypt (toyEnv []) [] b!"x.mo" toyIv (fun _ => toyMask 1) (List.replicate 40 65) false
    (fun _ => true) = .ok (t, out, true) ∧ out.length = 96 := ⟨_, _, by rfl, by rfl⟩

/-! ## C52 -/

/-- **C52.** Encryption reports success only if the input was read to its end and everything was
written. -/
theorem c52_success_means_complete (e : CrEnv) (he : GoodEnv e) (t t' : MaskTable) (p iv : Bytes)
    (hiv : iv.length = 16) (rand : Bytes → Bytes) (hr : ∀ d, (rand d).length = e.keyLen)
    (inp : Bytes) (bad : Bool) (wOk : Nat → Bool) (out : Bytes)
    (h : crEncrypt e t p iv rand inp bad wOk = .ok (t', out, true)) :
    bad = false ∧ ∃ key, Encrypted e.C key (key.take e.keyLen) iv
      (if eqNoCase b!"package.mo" (fileName p) then inp ++ rand (dirKey p) else inp) out := by
  obtain ⟨t1, out1, ok1, h1, h2⟩ := crEncrypt_spec e he t p iv hiv rand hr inp bad wOk
  rw [h] at h1
  simp only [Res.ok.injEq, Prod.mk.injEq] at h1
  obtain ⟨-, rfl, rfl⟩ := h1
  exact h2 rfl

-- a full disk at the third write, and a read error, are both reported
example : (∃ t out, crEncrypt (toyEnv []) [] b!"x.mo" toyIv (fun _ => toyMask 1) (List.replicate 40 65) false
    (fun i => i < 2) = .ok (t, out, false)) ∧
    (∃ t out, crEncrypt (toyEnv []) [] b!"x.mo" toyIv (fun _ => toyMask 1) (List.replicate 40 65) true
    (fun _ => true) = .ok (t, out, false)) := ⟨⟨_, _, by rfl⟩, ⟨_, _, by rfl⟩⟩

/-! ## C32 -/

/-- **C32.** Whatever the file, the path and the state of the cache: contents are released only if the
MAC at the end of the file is the MAC, under the key computed for the path, of the IV and the decrypted
payload.  What is released is a prefix of that payload. -/
theorem c32_mac_checked (e : CrEnv) (he : GoodEnv e) (t t' : MaskTable) (p content out : Bytes) (n : Int)
    (h : crDecrypt e t p content = .ok (t', n, out)) (hn : 0 ≤ n) :
    ∃ t1 key flag, demaskKey e (demaskFuel p) t p e.key = .ok (t1, key, flag) ∧
      16 < content.length ∧
      e.C.mac (key.take e.keyLen) (content.take 16 ++ out) = content.drop (content.length - 32) ∧
      n ≤ out.length := by
  unfold crDecrypt at h
  rw [Res.bind_eq_ok] at h
  obtain ⟨⟨t1, key, flag⟩, h1, h⟩ := h
  have hl := decryptTail_ok_length he h hn
  obtain ⟨h2, -, -⟩ := decryptTail_ok h hn
  refine ⟨t1, key, flag, h1, by omega, ?_, hl.2⟩
  rw [← h2, List.take_append_of_le_length (by omega)]

/-- **C32, in a library.** In a packaged library and after any requests, contents offered for one of
its files are released only if their MAC is right for the IV and payload under the key of that very
file; so if the IV or payload differ from the original and the MAC field does not, the vendor's MAC key
has a collision. -/
theorem c32_library (e : CrEnv) (he : GoodEnv e) (jobs : List Job) (hP : Packaged e.keyLen jobs)
    (outs : List (Bytes × Bytes)) (henc : encryptAll e [] jobs = .ok (some outs))
    (hread : ∀ o ∈ outs, e.read (e.basedir ++ b!"/" ++ o.1) = some o.2) (hsz : SizesOk e jobs)
    (hne : ∀ j ∈ jobs, j.isPackage → j.plain ≠ []) (reqs : List Job) (hr : ∀ j ∈ reqs, j ∈ jobs)
    (t t' : MaskTable) (got : List (Option Bytes))
    (hreq : decryptAll e [] (reqs.map fun j => j.path ++ b!"c") = .ok (t, got))
    (j : Job) (hj : j ∈ jobs) (content out : Bytes) (n : Int)
    (h : crDecrypt e t (j.path ++ b!"c") content = .ok (t', n, out)) (hn : 0 ≤ n) :
    ∃ key, KeyOf e jobs j key ∧
      e.C.mac (key.take e.keyLen) (content.take 16 ++ out) = content.drop (content.length - 32) ∧
      ∃ original, (j.path ++ b!"c", original) ∈ outs ∧
        ((content.take 16 ≠ j.iv ∨ out ≠ j.plain ++ if j.isPackage then j.mask else []) →
          content.drop (content.length - 32) = original.drop (original.length - 32) →
          ∃ a b, a ≠ b ∧ e.C.mac (key.take e.keyLen) a = e.C.mac (key.take e.keyLen) b) := by
  have hl : ∀ j ∈ jobs, (relPath j.dirs).length + 1 ≤ 4096 := by
    intro j hj
    have := (hsz j hj).1
    have := relPath_packagec_length j.dirs
    have := relPath_dirs_le j.dirs
    omega
  obtain ⟨outs', h1, h2⟩ := encryptAll_spec e he hP hl jobs [] rfl [] encInv_nil
  rw [henc] at h1
  simp only [Res.ok.injEq, Option.some.injEq] at h1
  subst h1
  have hf : ∀ j ∈ jobs, ∃ o, (j.path ++ b!"c", o) ∈ outs ∧ EncOf e jobs j o := by
    intro j hj
    obtain ⟨o, ho, hp, hq⟩ := forall₂_mem h2 j hj
    exact ⟨o.2, by rw [← hp]; exact ho, hq⟩
  have hlib : LibRead e jobs := by
    intro j hj
    obtain ⟨o, ho, hq⟩ := hf j hj
    exact ⟨o, hread _ ho, hq⟩
  obtain ⟨t2, h3, h4⟩ := decryptAll_lib e he hP.complete hlib hsz hne reqs hr [] (decInv_nil jobs)
  rw [hreq] at h3
  simp only [Res.ok.injEq, Prod.mk.injEq] at h3
  obtain ⟨rfl, -⟩ := h3
  obtain ⟨t1, h5, -⟩ := demask_job e he hP.complete hlib hsz hne j hj t h4
  obtain ⟨t1', key', flag', h6, h7, h8, -⟩ := c32_mac_checked e he t t' _ content out n h hn
  rw [h5] at h6
  simp only [Res.ok.injEq, Prod.mk.injEq] at h6
  obtain ⟨-, rfl, -⟩ := h6
  obtain ⟨o, ho, hq⟩ := hf j hj
  refine ⟨_, keyOf_fileKeyOf hP.complete hj, h8, o, ho, fun hdiff hmac => ?_⟩
  obtain ⟨bs, pad, -, -, -, -, hout⟩ := hq
  refine ⟨content.take 16 ++ out, j.iv ++ (j.plain ++ if j.isPackage then j.mask else []), ?_, ?_⟩
  · intro heq
    have hlen : (content.take 16).length = j.iv.length := by
      rw [(hP.draws j hj).1]; simp; omega
    obtain ⟨ha, hb⟩ := List.append_inj heq hlen
    rcases hdiff with hd | hd
    · exact hd ha
    · exact hd hb
  · rw [h8, hmac, hout]
    have := he.crypto.mac_length ((fileKeyOf e (maskOf jobs) j.dirs (decide j.isPackage)).take e.keyLen)
      (j.iv ++ (j.plain ++ if j.isPackage then j.mask else []))
    rw [List.length_append, this, Nat.add_sub_cancel, List.drop_left]

/-! ## C33 -/

/-- **C33, partial.** A library in which every directory on the way to a file has a package file, and
package files are not empty, is encrypted without failure in any order that takes package files first;
and a decryption context over the encrypted files (with any base directory) delivers, for every
sequence of requests, exactly the original contents each time.

Missing: empty package files (`c33_empty_package_not`); full paths of package files that do not fit
4096 bytes and contents of 2 GB or more (`SizesOk`). -/
theorem c33_library_partial (e : CrEnv) (he : GoodEnv e) (jobs : List Job)
    (hP : Packaged e.keyLen jobs) (hne : ∀ j ∈ jobs, j.isPackage → j.plain ≠ [])
    (hl : ∀ j ∈ jobs, (relPath j.dirs).length + 1 ≤ 4096) :
    ∃ outs, encryptAll e [] jobs = .ok (some outs) ∧
      outs.map (·.1) = jobs.map (fun j => j.path ++ b!"c") ∧
      ∀ basedir read, SizesOk { e with basedir := basedir, read := read } jobs →
        (∀ o ∈ outs, read (basedir ++ b!"/" ++ o.1) = some o.2) →
        ∀ reqs : List Job, (∀ j ∈ reqs, j ∈ jobs) →
        ∃ t, decryptAll { e with basedir := basedir, read := read } []
          (reqs.map fun j => j.path ++ b!"c") = .ok (t, reqs.map fun j => some j.plain) := by
  obtain ⟨outs, h1, h2⟩ := encryptAll_spec e he hP hl jobs [] rfl [] encInv_nil
  refine ⟨outs, h1, ?_, ?_⟩
  · have key : ∀ {R : Job → Bytes × Bytes → Prop} {as : List Job} {bs : List (Bytes × Bytes)},
        (∀ j o, R j o → o.1 = j.path ++ b!"c") → List.Forall₂ R as bs →
        bs.map (·.1) = as.map (fun j => j.path ++ b!"c") := by
      intro R as bs hR h
      induction h with
      | nil => rfl
      | cons h _ ih => rw [List.map_cons, List.map_cons, ih, hR _ _ h]
    exact key (fun j o h => h.1) h2
  · intro basedir read hsz hread reqs hr
    have he' : GoodEnv { e with basedir := basedir, read := read } := ⟨he.crypto, he.key, he.keyLen⟩
    have hlib : LibRead { e with basedir := basedir, read := read } jobs := by
      intro j hj
      obtain ⟨o, ho, hp, hq⟩ := forall₂_mem h2 j hj
      exact ⟨o.2, by rw [← hp]; exact hread _ ho, hq⟩
    obtain ⟨t, h3, -⟩ := decryptAll_lib _ he' (jobs := jobs) hP.complete hlib hsz hne reqs hr [] (decInv_nil jobs)
    exact ⟨t, h3⟩

/-- A library with a package in a package. -/
def exLib : List Job :=
  [⟨[], b!"package.mo", toyIv, toyMask 1, b!"package L end L;"⟩,
   ⟨[b!"A"], b!"package.mo", toyIv, toyMask 2, b!"package A end A;"⟩,
   ⟨[b!"A"], b!"x.mo", toyIv, toyMask 0, b!"model x end x;"⟩]

theorem exLib_packaged : Packaged 32 exLib where
  names := by
    intro j hj
    simp only [exLib, List.mem_cons, List.not_mem_nil, or_false] at hj
    rcases hj with rfl | rfl | rfl <;>
      (refine ⟨⟨by decide, by decide⟩, by decide, ?_⟩
       simp only [List.mem_cons, List.not_mem_nil, or_false, false_implies, implies_true, forall_eq]
       try exact ⟨⟨by decide, by decide⟩, by decide, by decide⟩)
  draws := by
    intro j hj
    simp only [exLib, List.mem_cons, List.not_mem_nil, or_false] at hj
    rcases hj with rfl | rfl | rfl <;> decide
  nodup := by decide
  first := by
    intro before j after h ds hds hn
    rcases before with _ | ⟨b1, _ | ⟨b2, _ | ⟨b3, b⟩⟩⟩
    · simp only [exLib, List.nil_append, List.cons.injEq] at h
      obtain ⟨rfl, -⟩ := h
      exact absurd ⟨rfl, List.prefix_nil.1 hds⟩ hn
    · simp only [exLib, List.cons_append, List.nil_append, List.cons.injEq] at h
      obtain ⟨rfl, rfl, -⟩ := h
      refine ⟨_, List.mem_singleton.2 rfl, ?_, rfl⟩
      rcases List.prefix_cons_iff.1 hds with h | ⟨t, h, h'⟩
      · exact h.symm
      · exact absurd ⟨rfl, by rw [h, List.prefix_nil.1 h']⟩ hn
    · simp only [exLib, List.cons_append, List.nil_append, List.cons.injEq] at h
      obtain ⟨rfl, rfl, rfl, -⟩ := h
      rcases List.prefix_cons_iff.1 hds with h | ⟨t, h, h'⟩
      · exact ⟨_, List.mem_cons_self, h.symm, rfl⟩
      · exact ⟨_, List.mem_cons_of_mem _ List.mem_cons_self, by rw [h, List.prefix_nil.1 h'], rfl⟩
    · simp [exLib] at h

-- the nested model, twice, before and after the top-level package file
example : (outsOf (toyEnv []) exLib).map (·.1) = [b!"package.moc", b!"A/package.moc", b!"A/x.moc"] ∧
    decryptAll (toyEnv (outsOf (toyEnv []) exLib)) [] [b!"A/x.moc", b!"package.moc", b!"A/x.moc"] =
      .ok ([(b!"/", toyMask 1), (b!"A", toyMask 2)],
        [some b!"model x end x;", some b!"package L end L;", some b!"model x end x;"]) := by
  decide +kernel

/-- A library whose package file is empty. -/
def exEmpty : List Job :=
  [⟨[], b!"package.mo", toyIv, toyMask 1, []⟩, ⟨[], b!"x.mo", toyIv, toyMask 0, b!"model x end x;"⟩]

/-- **C33 fails for an empty package file**: files beside it cannot be decrypted, until the package
file itself has been requested. -/
theorem c33_empty_package_not :
    ∃ (e : CrEnv) (jobs : List Job) (outs : List (Bytes × Bytes)) (t t' : MaskTable), GoodEnv e ∧
      encryptAll e [] jobs = .ok (some outs) ∧
      (∀ o ∈ outs, e.read (e.basedir ++ b!"/" ++ o.1) = some o.2) ∧
      outs.map (·.1) = [b!"package.moc", b!"x.moc"] ∧
      decryptAll e [] [b!"x.moc"] = .ok (t, [none]) ∧
      decryptAll e [] [b!"package.moc", b!"x.moc"] = .ok (t', [some [], some b!"model x end x;"]) := by
  refine ⟨toyEnv (outsOf (toyEnv []) exEmpty), exEmpty, outsOf (toyEnv []) exEmpty,
    [(b!"/", toyMask 1)], [(b!"/", toyMask 1)], toyEnv_good _, ?_, ?_, ?_, ?_, ?_⟩ <;>
  decide +kernel

/-! ## C34 -/

/-- **C34, encryption.** In any library and any order that takes package files first, every file is
encrypted under the vendor key masked with the mask of the nearest directory above it that has a
package file (a package file: above its directory). -/
theorem c34_encrypt_nearest (e : CrEnv) (he : GoodEnv e) (jobs : List Job)
    (hP : PackagesFirst e.keyLen jobs) (hl : ∀ j ∈ jobs, (relPath j.dirs).length + 1 ≤ 4096) :
    ∃ outs, encryptAll e [] jobs = .ok (some outs) ∧
      List.Forall₂ (fun j o => o.1 = j.path ++ b!"c" ∧ ∃ key, KeyOf e jobs j key ∧
        Encrypted e.C key (key.take e.keyLen) j.iv
          (j.plain ++ if j.isPackage then j.mask else []) o.2) jobs outs :=
  encryptAll_loose e he hP hl jobs [] rfl [] (looseInv_nil _ _)

/-- **C34 fails for decryption.** In every directory-less library without a package file (so that no
mask applies), a file with a name of at least 11 characters and at least as many bytes as the key is
delivered with its last bytes missing: as many as the key has. -/
theorem c34_decrypt_truncates_not (e : CrEnv) (he : GoodEnv e) (name iv plain : Bytes) (hn : IsName name)
    (hp : ¬ eqNoCase b!"package.mo" name) (hiv : iv.length = 16) (rand : Bytes → Bytes)
    (hread : e.read (snprintf 4096 (e.basedir ++ b!"/" ++ b!"package.moc")) = none)
    (hlong : 10 ≤ name.length ∧ name.length < 4000) (hlen : plain.length + 96 < 2 ^ 31)
    (hk : e.keyLen ≤ plain.length) :
    ∃ t t' out, crEncrypt e [] name iv rand plain false (fun _ => true) = .ok (t, out, true) ∧
      crDecrypt e [] (name ++ b!"c") out = .ok (t', (plain.length : Int) - e.keyLen, plain) := by
  have hname : lastSlash name = 0 := lastSlash_name name hn
  have hn2 : IsName (name ++ b!"c") := by
    refine ⟨by simp, fun c hc => ?_⟩
    rcases List.mem_append.1 hc with h | h
    · exact hn.2 c h
    · simp at h; subst h; decide
  have hname2 : lastSlash (name ++ b!"c") = 0 := lastSlash_name _ hn2
  have hp2 : ¬ eqNoCase b!"package.moc" (name ++ b!"c") := by
    intro h
    apply hp
    simp only [eqNoCase, beq_iff_eq, List.map_append] at h ⊢
    exact List.append_cancel_right (as := b!"package.mo".map toLower) (bs := b!"c".map toLower) h
  have hz : e.mask e.key (List.replicate e.keyLen 0) = e.key := by
    unfold CrEnv.mask
    rw [xorBytes_zero _ _ (by simp), List.take_append_drop]
  obtain ⟨ws, h1, h2⟩ := encBody_spec e he e.key iv plain hiv 0 [] (by simp)
  simp only [ne_eq, not_true_eq_false, if_false, List.append_nil] at h2
  have hl := encrypted_length he.crypto hiv h2
  have hdk : demaskKey e (demaskFuel (name ++ b!"c")) [] (name ++ b!"c") e.key = .ok ([], e.key, 1) := by
    have hf : demaskFuel (name ++ b!"c") = (demaskFuel (name ++ b!"c") - 2) + 1 + 1 := by
      unfold demaskFuel; omega
    have hls : lastSlash b!"package.moc" = 0 := by decide
    have hfn : fileName b!"package.moc" = b!"package.moc" := by decide
    rw [hf, demaskKey]
    simp only [hname2, fileName, hp2, if_true, if_false, MaskTable.find, List.find?_nil, Option.map_none,
      longFileNameMax, hread, Bool.false_eq_true]
    rw [if_neg (by omega), demaskKey]
    simp only [hls, hfn, if_true]
    rw [if_pos (by decide)]
  obtain ⟨t', ht'⟩ := storeKeymask_defined [] (name ++ b!"c") (plain.drop (plain.length - e.keyLen))
    (by simp; omega) (by simp; omega)
  refine ⟨[(b!"/", List.replicate e.keyLen 0)], t', iv ++ ws.flatten, ?_, ?_⟩
  · simp [crEncrypt, maskKey, fileName, dirKey, hname, hp, MaskTable.find, addItem, hz, h1,
      runWrites_all]
  · have := decryptTail_encrypted e he [] (name ++ b!"c") e.key iv plain _ hiv 1 h2 (by rw [hl]; omega)
    rw [crDecrypt, hdk, Res.bind_ok]
    simp only
    rw [this, if_pos (by decide), if_neg (by omega), ht']
    simp; omega

-- the hypotheses are met, and the loss is 32 of 40 bytes
example : ∃ t t' out, crEncrypt (toyEnv []) [] b!"longername.mo" toyIv (fun _ => []) (List.replicate 40 65)
    false (fun _ => true) = .ok (t, out, true) ∧
    crDecrypt (toyEnv []) [] b!"longername.moc" out = .ok (t', 8, List.replicate 40 65) :=
  c34_decrypt_truncates_not (toyEnv []) (toyEnv_good []) b!"longername.mo" toyIv (List.replicate 40 65)
    ⟨by decide, by decide⟩ (by decide) (by decide) _ (by decide) (by decide) (by decide) (by decide)

/-- **C34 fails for decryption** also below a directory that does have a package file, and for a short
path the memory access is undefined. -/
theorem c34_decrypt_sub_not :
    ∃ (e : CrEnv) (jobs : List Job) (outs : List (Bytes × Bytes)), GoodEnv e ∧
      PackagesFirst e.keyLen jobs ∧
      encryptAll e [] jobs = .ok (some outs) ∧
      (∀ o ∈ outs, e.read (e.basedir ++ b!"/" ++ o.1) = some o.2) ∧
      (∃ t, decryptAll e [] [b!"sub/longer.moc"] = .ok (t, [some b!"model"])) ∧
      decryptAll e [] [b!"s/x.moc"] = .ub .sizeWrap := by
  let jobs : List Job := [⟨[], b!"package.mo", toyIv, toyMask 1, b!"package L end L;"⟩,
    ⟨[b!"sub"], b!"longer.mo", toyIv, toyMask 0, b!"model" ++ List.replicate 32 65⟩,
    ⟨[b!"s"], b!"x.mo", toyIv, toyMask 0, b!"model" ++ List.replicate 32 65⟩]
  refine ⟨toyEnv (outsOf (toyEnv []) jobs), jobs, outsOf (toyEnv []) jobs, toyEnv_good _,
    ⟨?_, ?_, by decide, ?_⟩, ?_⟩
  · intro j hj
    simp only [jobs, List.mem_cons, List.not_mem_nil, or_false] at hj
    rcases hj with rfl | rfl | rfl <;>
      (refine ⟨⟨by decide, by decide⟩, by decide, ?_⟩
       simp only [List.mem_cons, List.not_mem_nil, or_false, false_implies, implies_true, forall_eq]
       try exact ⟨⟨by decide, by decide⟩, by decide⟩)
  · intro j hj
    simp only [jobs, List.mem_cons, List.not_mem_nil, or_false] at hj
    rcases hj with rfl | rfl | rfl <;> decide
  · intro before j after h k hk hkp hpre hkj
    have hk1 : k = jobs.head (by simp [jobs]) := by
      simp only [jobs, List.mem_cons, List.not_mem_nil, or_false] at hk
      rcases hk with rfl | rfl | rfl
      · rfl
      · simp [Job.isPackage] at hkp
      · simp [Job.isPackage] at hkp
    cases before with
    | nil =>
      simp only [jobs, List.nil_append, List.cons.injEq] at h
      exact absurd (hk1.trans (by simp [jobs, h.1])) hkj
    | cons b bs =>
      simp only [jobs, List.cons_append, List.cons.injEq] at h
      rw [hk1]; simp [jobs, h.1]
  · refine ⟨by decide +kernel, by decide +kernel, ⟨[(b!"/", toyMask 1), (b!"su", List.replicate 32 65)], ?_⟩,
      by decide +kernel⟩
    decide +kernel

/-! ## C35 -/

/-- **C35, partial.** Once a file of a directory has been encrypted with a context, its package file is
refused by that context from then on, whatever else it encrypts, or fails to, in between.

Missing: directories that got a mask only through files further down (`c35_lost_not`). -/
theorem c35_refused_partial (e : CrEnv) (t t1 t2 : MaskTable) (ds : List Bytes) (name : Bytes)
    (hds : ∀ d ∈ ds, IsName d) (hname : IsName name) (hl : (relPath ds).length + 1 ≤ 4096)
    (iv inp out : Bytes) (rand : Bytes → Bytes) (bad : Bool) (wOk : Nat → Bool)
    (h1 : crEncrypt e t (relPath (ds ++ [name])) iv rand inp bad wOk = .ok (t1, out, true))
    (h2 : EncHistory e t1 t2) (iv' inp' : Bytes) (rand' : Bytes → Bytes) (bad' : Bool) (wOk' : Nat → Bool) :
    ∃ out', crEncrypt e t2 (relPath (ds ++ [b!"package.mo"])) iv' rand' inp' bad' wOk' =
      .ok (t2, out', false) := by
  obtain ⟨-, -, h3, -⟩ := path_facts ds name hds hname hl
  obtain ⟨-, h5, h6, -⟩ := path_facts ds b!"package.mo" hds isName_package hl
  obtain ⟨x, hx⟩ := (crEncrypt_keeps h1).2 rfl
  have hx2 := encHistory_keeps h2 _ _ hx
  rw [h3] at hx2
  unfold crEncrypt
  split
  · exact ⟨_, rfl⟩
  · simp [maskKey, h5, h6, eqNoCase_self, hx2]

example : ∃ t1 t2 o1 o2 o3, crEncrypt (toyEnv []) [] b!"A/x.mo" toyIv (fun _ => []) b!"m" false (fun _ => true)
      = .ok (t1, o1, true) ∧
    crEncrypt (toyEnv []) t1 b!"B/y.mo" toyIv (fun _ => []) b!"m" false (fun _ => true) = .ok (t2, o2, true) ∧
    crEncrypt (toyEnv []) t2 b!"A/package.mo" toyIv (fun _ => toyMask 1) b!"m" false (fun _ => true) =
      .ok (t2, o3, false) := ⟨_, _, _, _, _, by rfl, by rfl, by rfl⟩

/-- The order of a library encrypted bottom-up. -/
def exUp : List Job :=
  [⟨[b!"A"], b!"package.mo", toyIv, toyMask 2, b!"package A end A;"⟩,
   ⟨[], b!"package.mo", toyIv, toyMask 1, b!"package L end L;"⟩]

/-- **C35 fails** when the directory got its mask as an ancestor in the first call of a context: the
top-level package file is accepted after `A/package.mo`, and then `A/package.moc` cannot be decrypted. -/
theorem c35_lost_not :
    ∃ (e : CrEnv) (outs : List (Bytes × Bytes)) (t : MaskTable), GoodEnv e ∧
      encryptAll e [] exUp = .ok (some outs) ∧
      outs.map (·.1) = [b!"A/package.moc", b!"package.moc"] ∧
      (∀ o ∈ outs, e.read (e.basedir ++ b!"/" ++ o.1) = some o.2) ∧
      decryptAll e [] [b!"A/package.moc"] = .ok (t, [none]) := by
  refine ⟨toyEnv (outsOf (toyEnv []) exUp), outsOf (toyEnv []) exUp, [(b!"/", toyMask 1)],
    toyEnv_good _, ?_, ?_, ?_, ?_⟩ <;> decide +kernel

/-! ## C36 -/

/-- **C36, partial.** Decryption of any contents in any state of the cache stays inside its buffers,
provided that the contents, and every `package.moc` it may read, have the length of an IV at
least and do not fall between the size of an empty encrypted file and one with a mask, the path has
between 11 and 4095 bytes and its directory at most 4083.

Missing: `c36_short_file_not`, `c36_short_package_not`, `c36_short_path_not`, `c36_long_path_not`. -/
theorem c36_memory_safe_partial (e : CrEnv) (he : GoodEnv e)
    (t : MaskTable) (p content : Bytes) (hp : 11 ≤ p.length ∧ p.length ≤ 4095)
    (hls : lastSlash p + 13 ≤ 4096)
    (hfs : ∀ q content, b!"package.moc" <:+ q → q.length ≤ p.length + 12 →
      e.read ((e.basedir ++ b!"/" ++ q).take 4095) = some content → 15 ≤ content.length ∧
      (content.length < 64 ∨ 64 + e.keyLen ≤ content.length) ∧ content.length < 2 ^ 31)
    (hc : 15 ≤ content.length ∧ (content.length < 64 ∨ 64 + e.keyLen ≤ content.length) ∧
      content.length < 2 ^ 31) :
    ∃ r, crDecrypt e t p content = .ok r := by
  have hlt := lastSlash_lt p
  obtain ⟨⟨t1, key, flag⟩, h1⟩ := demaskKey_defined e he (p.length + 12) hfs (demaskFuel p) t p e.key hp.2
    (by unfold demaskFuel; split <;> omega) hls (by omega)
  obtain ⟨r, h2⟩ := decryptTail_defined e he t1 p key flag content hc (fun _ => by omega)
  exact ⟨r, by simp [crDecrypt, h1, h2]⟩

-- a file of junk in a directory whose package file is junk, too
example : ∃ r, crDecrypt (toyEnv [(b!"A/package.moc", List.replicate 200 1)]) [] b!"A/longname.moc"
    (List.replicate 100 2) = .ok r := ⟨([], -1, []), by decide +kernel⟩

/-- **C36 fails** for files of fewer than 15 bytes: the IV is read beyond the buffer. -/
theorem c36_short_file_not (e : CrEnv) (content : Bytes) (h : content.length < 15) :
    crDecryptNoContext e content = .ub .oobRead ∧
    crDecrypt e [] b!"package.moc" content = .ub .oobRead := by
  have hd : demaskKey e (demaskFuel b!"package.moc") [] b!"package.moc" e.key = .ok ([], e.key, 1) := by
    rw [show demaskFuel b!"package.moc" = 24 + 1 from rfl, demaskKey]
    simp only [show lastSlash b!"package.moc" = 0 from by decide,
      show fileName b!"package.moc" = b!"package.moc" from by decide, if_true]
    rw [if_pos (by decide)]
  have ht : ∀ p flag, decryptTail e [] p e.key flag content = .ub .oobRead := by
    intro p flag
    unfold decryptTail
    rw [if_pos (by omega)]
  constructor
  · unfold crDecryptNoContext; rw [ht]; rfl
  · unfold crDecrypt; rw [hd, Res.bind_ok]; exact ht _ _

/-- **C36 fails** for a package file with a valid MAC whose payload is shorter than a key mask, such as
one produced by the encryptor from another file name. -/
theorem c36_short_package_not :
    ∃ (e : CrEnv) (t : MaskTable) (out : Bytes), GoodEnv e ∧
      crEncrypt e [] b!"x.mo" toyIv (fun _ => []) b!"model" false (fun _ => true) = .ok (t, out, true) ∧
      crDecrypt e [] b!"package.moc" out = .ub .oobRead :=
  ⟨toyEnv [], _, _, toyEnv_good _, by rfl, by decide +kernel⟩

/-- **C36 fails** for a short path in a directory without package file: a length wraps around. -/
theorem c36_short_path_not :
    ∃ (e : CrEnv) (t : MaskTable) (out : Bytes), GoodEnv e ∧
      crEncrypt e [] b!"x.mo" toyIv (fun _ => []) (List.replicate 40 65) false (fun _ => true) =
        .ok (t, out, true) ∧
      crDecrypt e [] b!"x.moc" out = .ub .sizeWrap :=
  ⟨toyEnv [], _, _, toyEnv_good _, by rfl, by decide +kernel⟩

/-- **C36 fails** for long paths: `/package.moc` is appended in a buffer of 4096 bytes that the
directory fills already. -/
theorem c36_long_path_not (e : CrEnv) (n : Nat) (h : 4084 ≤ n ∧ n ≤ 4094) (content : Bytes) :
    crDecrypt e [] (List.replicate n 65 ++ b!"/x") content = .ub .oobWrite := by
  have hls : lastSlash (List.replicate n 65 ++ b!"/x") = n := by
    have := lastSlash_join' (List.replicate n 65) b!"x" ⟨by decide, by decide⟩ (by simp; omega)
    simpa using this
  have hfn : fileName (List.replicate n 65 ++ b!"/x") = b!"x" := by
    unfold fileName
    have : n + 1 = (List.replicate n 65 ++ b!"/").length := by simp
    rw [hls, if_neg (by omega), this, show List.replicate n 65 ++ b!"/x" =
      (List.replicate n 65 ++ b!"/") ++ b!"x" from by simp, List.drop_left]
  have hf : demaskFuel (List.replicate n 65 ++ b!"/x") = 2 * n + 6 + 1 := by
    unfold demaskFuel; rw [List.length_append, List.length_replicate]; simp; omega
  unfold crDecrypt
  rw [hf, demaskKey]
  simp only [hls, hfn, MaskTable.find, List.find?_nil, Option.map_none, longFileNameMax]
  rw [if_neg (by decide), if_pos (by omega)]
  rfl

/-! ## C37 -/

/-- **C37.** The keys of two files that are not package files are equal exactly if the masks in force
in their directories are. -/
theorem c37_keys_differ (e : CrEnv) (he : GoodEnv e) (jobs : List Job) (hP : PackagesFirst e.keyLen jobs)
    (j j' : Job) (hj : ¬ j.isPackage) (hj' : ¬ j'.isPackage)
    (k k' : Bytes) (hk : KeyOf e jobs j k) (hk' : KeyOf e jobs j' k') :
    k = k' ↔ ∃ m, MaskInForce e.keyLen jobs j.dirs m ∧ MaskInForce e.keyLen jobs j'.dirs m := by
  simp only [KeyOf, hj, hj', if_false] at hk hk'
  obtain ⟨m, hm, rfl⟩ := hk
  obtain ⟨m', hm', rfl⟩ := hk'
  constructor
  · intro h
    have := mask_inj e he (maskInForce_length hP hm) (maskInForce_length hP hm') h
    exact ⟨m, hm, this ▸ hm'⟩
  · rintro ⟨x, h1, h2⟩
    rw [maskInForce_unique hP.nodup hm h1, maskInForce_unique hP.nodup hm' h2]

/-- **C37, package files.** The top-level package file is encrypted under the vendor key itself, any
other under the key of the files of its parent directory. -/
theorem c37_package_keys (e : CrEnv) (he : GoodEnv e) (jobs : List Job)
    (hP : PackagesFirst e.keyLen jobs) (hl : ∀ j ∈ jobs, (relPath j.dirs).length + 1 ≤ 4096)
    (j : Job) (hj : j ∈ jobs) (hp : j.isPackage) :
    ∃ outs o, encryptAll e [] jobs = .ok (some outs) ∧ (j.path ++ b!"c", o) ∈ outs ∧
      (j.dirs = [] → Encrypted e.C e.key (e.key.take e.keyLen) j.iv (j.plain ++ j.mask) o) ∧
      (j.dirs ≠ [] → ∃ m, MaskInForce e.keyLen jobs j.dirs.dropLast m ∧
        Encrypted e.C (e.mask e.key m) ((e.mask e.key m).take e.keyLen) j.iv (j.plain ++ j.mask) o) := by
  obtain ⟨outs, h1, h2⟩ := c34_encrypt_nearest e he jobs hP hl
  obtain ⟨o, ho, hpath, key, hk, henc⟩ := forall₂_mem h2 j hj
  simp only [hp, if_true] at henc
  refine ⟨outs, o.2, h1, by rw [← hpath]; exact ho, fun hr => ?_, fun hr => ?_⟩
  · simp only [KeyOf, hp, hr, if_true] at hk
    rw [hk] at henc; exact henc
  · simp only [KeyOf, hp, hr, if_true, if_false] at hk
    obtain ⟨m, hm, rfl⟩ := hk
    exact ⟨m, hm, henc⟩

/-- The packaged example library satisfies the weaker condition, too. -/
theorem exLib_packagesFirst : PackagesFirst 32 exLib := exLib_packaged.packagesFirst

-- its three files use three different keys
example : KeyOf (toyEnv []) exLib exLib[0] (toyEnv []).key ∧
    KeyOf (toyEnv []) exLib exLib[1] ((toyEnv []).mask (toyEnv []).key (toyMask 1)) ∧
    KeyOf (toyEnv []) exLib exLib[2] ((toyEnv []).mask (toyEnv []).key (toyMask 2)) := by
  have h0 : maskOf exLib [] = some (toyMask 1) := by decide
  have h1 : maskOf exLib [b!"A"] = some (toyMask 2) := by decide
  refine ⟨?_, ?_, ?_⟩
  · simp [KeyOf, exLib, Job.isPackage]
  · have := maskInForce_of_maskOf (keyLen := 32) h0
    simpa [KeyOf, exLib, Job.isPackage] using ⟨_, this, rfl⟩
  · have := maskInForce_of_maskOf (keyLen := 32) h1
    simpa [KeyOf, exLib, Job.isPackage] using ⟨_, this, rfl⟩

end Semla.Props
