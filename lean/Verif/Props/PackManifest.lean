import Verif.Lemmas.PackManifest
import Verif.Props.PackUnpack

/-!
# Properties of the manifest in the archive: C45, C58
-/

namespace Semla.Props

open Semla Spec

/-! ## C58 -/

/-- **C58, partial.** The archive made by a successful run has a manifest, which is well-formed XML and says
what the arguments say; with encryption it lists the vendor executables found, and each of them is in the
archive at the path listed, with the contents that were copied (unless an extra file of the same name takes
its place, see C69).  The icon is described by a path `icon` of which more is said in C45.

Missing for the full claim: included files (C44), values that are not XML characters (C43), unusual lengths
of the environment variable `TMPDIR` (`c45_tmpdir_not`). -/
theorem c58_partial (env : PackEnv) (args : List Bytes) (a : Archive)
    (h : packTool env args = .ok ⟨0, some a⟩) (ps : List (Bytes × Bytes)) (hp : ArgPairs args ps)
    (path lib : Bytes) (hpath : (b!"librarypath", path) ∈ ps) (hlib : LibraryName path lib) (l : Listing)
    (hl : env.library = some l) (content : List Bytes → Bytes) (hc : Copyable env.librarySource l content)
    (ht : Truthful env lib) (htemp : ∀ t, env.tempDir = some t → TempName t)
    (h4 : 4 ≤ (env.tmpVar.getD b!"/tmp").length) (h25 : (env.tmpVar.getD b!"/tmp").length ≤ 25)
    (hchars : ∀ x ∈ ps, xmlChars x.2 = true) (hid : xmlChars lib = true)
    (hnames : ∀ e ∈ entries l, xmlChars (lib ++ b!"/" ++ relPath e.1) = true)
    (hinc : ∀ v, (b!"tools", v) ∉ ps ∧ (b!"dependencies", v) ∉ ps) :
    ∃ doc es enc icon, ([lib, b!".library", b!"manifest.xml"], doc) ∈ a ∧ readXml doc = some es ∧
      significant es = manifestParts (argOf ps) lib enc icon ∧
      (AsksEncryption ps → enc = some (vendorExecutables.filter fun x => env.lve x.1) ∧
        ∀ x ∈ vendorExecutables, env.lve x.1 = true → ∃ c, ([lib, b!".library", x.1], c) ∈ a ∧
          ((∀ e, env.extra = some (some e) → [x.1] ∉ (entries e).map (·.1)) →
            env.lveCopied x.1 = (some c, true))) ∧
      (¬ AsksEncryption ps → enc = none) ∧
      (argOf ps b!"icon" = none → icon = none) ∧
      (∀ v n, argOf ps b!"icon" = some v → LastName v n → ∃ q, icon = some (lib ++ b!"/" ++ relPath q) ∧
        (q, Kind.file) ∈ entries l ∧ Outside q ∧ nameOf q = n ∧ ([n], Kind.file) ∈ entries l) := by
  obtain ⟨d, tempDir, icon, lves, fs1, fs2, fs3, fs4, fs5, fs6, zl, hd, hs, -, henc, hz, ha, hok⟩ :=
    packTool_packed h hp hpath hlib hl hc
  have hshow := ht.zip fs6 zl hz
  have hw := fun l' hl' => (ht.encrypt fs5 l' hl').1
  have inside : ∀ q c, fs5.get (lib :: q) = some (.file c) → (nameOf (lib :: q)).getLast? ≠ some 99 →
      ¬ ModelicaName (nameOf (lib :: q)) → (lib :: q, c) ∈ a := by
    intro q c hq hn hm
    have hq6 : fs6.get (lib :: q) = some (.file c) := by rw [hs.encryptKeeps hw _ hn, hq]
    obtain ⟨c', h6, h7⟩ := zipEntries_complete zl [] hok (lib :: q) (shows_mem hshow (by simp) hq6) fun _ => hm
    rw [List.nil_append, hq6] at h6
    simp only [Option.some.injEq, Node.file.injEq] at h6
    rw [ha, h6]
    exact h7
  have notMod : ∀ n, isModelicaFile n = false → ¬ ModelicaName n := by
    intro n hn hm
    rw [← isModelicaFile_iff, hn] at hm
    simp at hm
  obtain ⟨doc, hdoc, hget⟩ := hs.written
  obtain ⟨icon1, icon2⟩ := hs.iconPath hl hc (fun l' hl' => ht.icon fs2 l' hl') (htemp _ hs.temp) h4 h25
  have hval : ∀ k ∈ manifestArgs, getValueOf d k = argOf ps k := by
    intro k hk
    have h1 : ∀ k ∈ manifestArgs, k ∈ knownArguments ∧ k ≠ b!"librarypath" ∧ k ≠ b!"encrypt" := by decide
    obtain ⟨g1, g2, g3⟩ := h1 k hk
    exact getValueOf_argOf hd hp g1 g2 g3
  have hicon : getValueOf d b!"icon" = argOf ps b!"icon" :=
    getValueOf_argOf hd hp (by decide) (by decide) (by decide)
  have hmand : (getValueOf d b!"version").isSome := by
    obtain ⟨d0, g1, g2, -⟩ := packArguments_ok hd
    have g3 : containsKey d0 b!"version" = true := List.all_eq_true.1 g2 b!"version" (by decide)
    obtain ⟨v, hv⟩ := (c38_lookup args d0 g1 ps hp b!"version" (by decide)).2.2.1 g3
    rw [packArguments_get hd hp (by decide) hv]
    rfl
  have hu := henc
  obtain ⟨vend, enc, hlv, hvend, he1, he2⟩ : ∃ (vend : List (Bytes × Bytes)) (enc : Option (List (Bytes × Bytes))),
      lves = vend.map (·.1) ∧ (∀ x ∈ vend, x ∈ vendorExecutables) ∧
      (AsksEncryption ps → enc = some vend ∧ vend = vendorExecutables.filter fun x => env.lve x.1) ∧
      (¬ AsksEncryption ps → enc = none) := by
    by_cases he : AsksEncryption ps
    · refine ⟨vendorExecutables.filter fun x => env.lve x.1,
        some (vendorExecutables.filter fun x => env.lve x.1), ?_, ?_, fun _ => ⟨rfl, rfl⟩, fun hn => absurd he hn⟩
      · rw [(hs.vendor (hu.2 he)).1]
        have : lveNames = vendorExecutables.map (·.1) := rfl
        rw [this, List.filter_map]
        rfl
      · intro x hx
        exact (List.mem_filter.1 hx).1
    · refine ⟨[], none, ?_, by simp, fun h => absurd h he, fun _ => rfl⟩
      rw [hs.no_vendor fun h => he (hu.1 h)]
      rfl
  have hEnc : Encrypts (getValueOf d b!"encrypt") ↔ AsksEncryption ps := by
    rw [← usingEncryption_iff]
    exact hu
  have hiconChars : ∀ p, icon = some p → xmlChars p = true := by
    intro p hp'
    cases hv : getValueOf d b!"icon" with
    | none => rw [icon1 hv] at hp'; simp at hp'
    | some v =>
      obtain ⟨q, h1, h2, -⟩ := icon2 v hv
      rw [h1] at hp'
      simp only [Option.some.injEq] at hp'
      rw [← hp']
      exact hnames _ h2
  have hiconSome : (getValueOf d b!"icon").isSome = icon.isSome := by
    cases hv : getValueOf d b!"icon" with
    | none => rw [icon1 hv]
    | some v =>
      obtain ⟨q, h1, -⟩ := icon2 v hv
      rw [h1]
      rfl
  obtain ⟨doc', es, g1, g2, g3⟩ := c43_partial d
    (by
      intro k hk v hv
      rw [hval k hk] at hv
      have hm := argOf_some hv
      exact ⟨argPairs_value hp _ hm, hchars _ hm⟩)
    hmand (packArguments_none hd hp (by decide) fun v => (hinc v).1)
    (packArguments_none hd hp (by decide) fun v => (hinc v).2) lib hid vend hvend icon hiconChars hiconSome
    env.readFile enc (fun he => (he1 (hEnc.1 he)).1) (fun hn => he2 fun h => hn (hEnc.2 h))
  rw [← hlv, hdoc] at g1
  simp only [Res.ok.injEq] at g1
  subst g1
  refine ⟨doc, es, enc, icon, inside _ _ hget
    (show (b!"manifest.xml").getLast? ≠ some 99 by decide) (notMod b!"manifest.xml" (by decide)), g2, ?_, ?_, he2, ?_, ?_⟩
  · rw [g3]
    exact manifestParts_congr hval lib enc icon
  · intro he
    refine ⟨by rw [(he1 he).1, (he1 he).2], ?_⟩
    intro x hx hlve
    have hxn : x.1 ∈ lveNames := by
      have : lveNames = vendorExecutables.map (·.1) := rfl
      rw [this]
      exact List.mem_map.2 ⟨x, hx, rfl⟩
    obtain ⟨c, hcx, hcc⟩ := (hs.vendor (hu.2 he)).2 x.1 hxn hlve
    have hall : ∀ x ∈ vendorExecutables, x.1.getLast? ≠ some 99 ∧ isModelicaFile x.1 = false := by decide
    exact ⟨c, inside _ _ hcx (hall x hx).1 (notMod _ (hall x hx).2), hcc⟩
  · intro hn
    exact icon1 (hicon.trans hn)
  · intro v n hv hn
    obtain ⟨q, h1, h2, h3, h5, h6⟩ := icon2 v (hicon.trans hv)
    rw [lastName_eq hn] at h5 h6
    exact ⟨q, h1, h2, h3, h5, h6⟩

/-- A library with an icon at its top. -/
def iconLib : Listing := .file b!"i.png" (.file b!"package.mo" .done)

/-- A command line with icon and title. -/
def iconCommand (icon : Bytes) : List Bytes :=
  sampleCommand b!"true" ++ [b!"-icon", icon, b!"-title", b!"A & B"]

theorem icon_pairs (icon : Bytes) (h : icon ≠ []) : ArgPairs (iconCommand icon)
    (samplePairs b!"true" ++ [(b!"icon", icon), (b!"title", b!"A & B")]) :=
  .cons (by decide) (by decide) (.cons (by decide) (by decide) (.cons (by decide) (by decide)
    (.cons (by decide) (by decide) (.cons (by decide) h (.cons (by decide) (by decide) .nil)))))

/-- The parts of the manifest that come with an archive. -/
def manifestOf : Res PackResult → Option (List XmlEvent)
  | .ok ⟨0, some a⟩ => ((a.find? fun f => f.1 == [b!"Lib", b!".library", b!"manifest.xml"]).bind fun f =>
      readXml f.2).map significant
  | _ => none

example : manifestOf (packTool (sampleMachine iconLib) (iconCommand b!"/x/i.png")) =
    some (manifestParts (argOf (samplePairs b!"true" ++ [(b!"icon", b!"/x/i.png"), (b!"title", b!"A & B")]))
      b!"Lib" (some [(b!"lve_linux64", b!"linux64")]) (some b!"Lib/i.png")) := by decide +kernel

example : TempName b!"/tmp/TemporaryFolderabcdef" ∧ LastName b!"/x/i.png" b!"i.png" ∧
    (∀ e ∈ entries iconLib, xmlChars (b!"Lib/" ++ relPath e.1) = true) :=
  ⟨⟨b!"abcdef", rfl, by decide, rfl⟩, ⟨b!"/x/", rfl, by decide, Or.inr rfl⟩, by decide +kernel⟩

/-! ## C45 -/

/-- **C45, partial.** If the icon argument leads to a file whose name no other file of the library has, a
successful run puts the path of that file into the manifest, with the name of the library before it.

Missing for the full claim: the name of the library should not be there (`c45_library_name_not`); icons in
subdirectories (`c45_subdirectory_not`), several files with the same name (`c45_other_file_not`), other
lengths of `TMPDIR` (`c45_tmpdir_not`). -/
theorem c45_partial (env : PackEnv) (args : List Bytes) (a : Archive)
    (h : packTool env args = .ok ⟨0, some a⟩) (ps : List (Bytes × Bytes)) (hp : ArgPairs args ps)
    (path lib : Bytes) (hpath : (b!"librarypath", path) ∈ ps) (hlib : LibraryName path lib) (l : Listing)
    (hl : env.library = some l) (content : List Bytes → Bytes) (hc : Copyable env.librarySource l content)
    (ht : Truthful env lib) (htemp : ∀ t, env.tempDir = some t → TempName t)
    (h4 : 4 ≤ (env.tmpVar.getD b!"/tmp").length) (h25 : (env.tmpVar.getD b!"/tmp").length ≤ 25)
    (hchars : ∀ x ∈ ps, xmlChars x.2 = true) (hid : xmlChars lib = true)
    (hnames : ∀ e ∈ entries l, xmlChars (lib ++ b!"/" ++ relPath e.1) = true)
    (hinc : ∀ v, (b!"tools", v) ∉ ps ∧ (b!"dependencies", v) ∉ ps) (v n : Bytes)
    (hv : argOf ps b!"icon" = some v) (hn : LastName v n)
    (huniq : ∀ q, (q, Kind.file) ∈ entries l → nameOf q = n → ∀ q', (q', Kind.file) ∈ entries l →
      nameOf q' = n → q = q') :
    ([n], Kind.file) ∈ entries l ∧ ∃ doc es, ([lib, b!".library", b!"manifest.xml"], doc) ∈ a ∧
      readXml doc = some es ∧
      (∀ as, XmlEvent.start b!"icon" as ∈ significant es ↔ as = [(b!"file", asValue (lib ++ b!"/" ++ n))]) := by
  obtain ⟨doc, es, enc, icon, g1, g2, g3, -, -, -, g4⟩ := c58_partial env args a h ps hp path lib hpath hlib l hl
    content hc ht htemp h4 h25 hchars hid hnames hinc
  obtain ⟨q, g5, g6, -, g7, g8⟩ := g4 v n hv hn
  have hq : q = [n] := huniq q g6 g7 [n] g8 rfl
  refine ⟨g8, doc, es, g1, g2, fun as => ?_⟩
  rw [g3, g5, hq]
  have hopt : ∀ (o : Option Bytes) (f : Bytes → List XmlEvent), (∀ v as, XmlEvent.start b!"icon" as ∉ f v) →
      ∀ as, XmlEvent.start b!"icon" as ∉ ifGiven o f := by
    intro o f hf as
    cases o with
    | none => simp [ifGiven]
    | some v => exact hf v as
  unfold manifestParts libraryParts
  simp only [List.mem_append,
    hopt _ (fun v => textElem b!"title" (asText v)) (by simp [textElem]) as,
    hopt _ (fun v => textElem b!"description" (asText (ownLine v))) (by simp [textElem]) as,
    hopt _ (fun v => leafElem b!"language" [(b!"version", asValue v)]) (by simp [leafElem]) as,
    hopt _ (fun v => textElem b!"copyright" (asText (ownLine v))) (by simp [textElem]) as,
    hopt _ (fun v => textElem b!"license" (asText (ownLine v))) (by simp [textElem]) as, false_or]
  rw [show (XmlEvent.start b!"icon" as ∈ ifGiven (argOf ps b!"version") fun v => leafElem b!"version"
    ([(b!"number", asValue v)] ++ ifGiven (argOf ps b!"build") (fun v => [(b!"build", asValue v)]) ++
    ifGiven (argOf ps b!"date") (fun v => [(b!"date", asValue v)]))) = False from
      eq_false (hopt _ _ (by simp [leafElem]) as)]
  cases enc <;> simp [leafElem, ifGiven, relPath]

example : ([b!"i.png"], Kind.file) ∈ entries iconLib ∧ ∀ q, (q, Kind.file) ∈ entries iconLib →
    nameOf q = b!"i.png" → ∀ q', (q', Kind.file) ∈ entries iconLib → nameOf q' = b!"i.png" → q = q' := by
  have h : ∀ e ∈ entries iconLib, nameOf e.1 = b!"i.png" → e.1 = [b!"i.png"] := by decide +kernel
  exact ⟨by decide, fun q hq hn q' hq' hn' => (h _ hq hn).trans (h _ hq' hn').symm⟩

/-- The attribute of the icon in a manifest. -/
def iconIn : Option (List XmlEvent) → List Bytes
  | some es => es.flatMap fun
    | .start n as => if n = b!"icon" then as.map (·.2) else []
    | _ => []
  | none => []

/-- The full claim is false: the path is not relative to the library; the name of the library comes
first. -/
theorem c45_library_name_not : iconIn (manifestOf (packTool (sampleMachine iconLib) (iconCommand b!"/l/Lib/i.png"))) =
    [b!"Lib/i.png"] := by decide +kernel

/-- The full claim is false: with the icon in a subdirectory, as in the documentation, the tool fails. -/
theorem c45_subdirectory_not : packTool (sampleMachine (.dir b!"Resources" (.dir b!"Images"
    (.file b!"MyIcon.png" .done) .done) (.file b!"package.mo" .done)))
    (iconCommand b!"/l/Lib/Resources/Images/MyIcon.png") = .ok ⟨4, none⟩ := by decide +kernel

/-- The full claim is false: a file of the same name elsewhere in the library can take its place. -/
theorem c45_other_file_not : iconIn (manifestOf (packTool (sampleMachine (.file b!"i.png" (.dir b!"A"
    (.file b!"i.png" .done) .done))) (iconCommand b!"/l/Lib/i.png"))) = [b!"Lib/A/i.png"] := by decide +kernel

/-- The full claim is false: with a long `TMPDIR` the tool reads behind the end of a path. -/
theorem c45_tmpdir_not : packTool { sampleMachine iconLib with
      tmpVar := some b!"/scratch/user/project/simulation/temporary" } (iconCommand b!"/l/Lib/i.png") =
    .ub .oobRead := by decide +kernel

end Semla.Props
