import Verif.Model.PackArgs

/-!
# The manifest writer

Models `src/packagetool/manifest.c`, all of it.  The output file is a byte string; writing to it does
not fail (results of `fprintf` and `fclose` are not looked at by the code).  `fopen` failing makes all
of it undefined (null `FILE`).
-/

namespace Semla

/-- The output and the static variables `xml_indent`, `xml_in_attributes`, `xml_on_new_line` of
manifest.c:36-41.  `xml_indent` never goes below zero. -/
structure XmlOut where
  out : Bytes
  indent : Nat
  inAttr : Bool
  newLine : Bool
  deriving DecidableEq, Repr

/-- One character of `print_escaped_text`, manifest.c:55-71. -/
def escapeByte (c : UInt8) : Bytes :=
  if c = 60 then b!"&lt;"
  else if c = 62 then b!"&gt;"
  else if c = 34 then b!"&quot;"
  else if c = 38 then b!"&amp;"
  else [c]

/-- `print_escaped_text`, manifest.c:50-73. -/
def escapeText (s : Bytes) : Bytes := s.flatMap escapeByte

namespace XmlOut

/-- `fprintf(fd, ...)`. -/
def put (x : XmlOut) (s : Bytes) : XmlOut := { x with out := x.out ++ s }

/-- `add_xml_indent`, manifest.c:79-88. -/
def addIndent (x : XmlOut) : XmlOut :=
  { (if x.newLine then x.put (List.replicate x.indent 9) else x) with newLine := false }

/-- `end_xml_attributes`, manifest.c:95-105. -/
def endAttributes (x : XmlOut) (nl : Bool) : XmlOut :=
  if x.inAttr then
    let x := { x.put b!">" with inAttr := false }
    if nl then { x.put b!"\n" with newLine := true } else x
  else x

/-- `xml_open`, manifest.c:111-119. -/
def openElem (x : XmlOut) (elem : Bytes) : XmlOut :=
  let x := ((x.endAttributes true).addIndent).put (b!"<" ++ elem)
  { x with inAttr := true, newLine := false, indent := x.indent + 1 }

/-- `xml_close`, manifest.c:125-136. -/
def closeElem (x : XmlOut) (elem : Bytes) : XmlOut :=
  let x := { x with indent := x.indent - 1 }
  let x :=
    if x.inAttr then { x.put b!"/>\n" with inAttr := false }
    else x.addIndent.put (b!"</" ++ elem ++ b!">\n")
  { x with newLine := true }

/-- `xml_attribute`, manifest.c:144-149. -/
def attr (x : XmlOut) (attr value : Bytes) : XmlOut :=
  x.put (b!" " ++ attr ++ b!"=\"" ++ escapeText value ++ b!"\"")

/-- `xml_text`, manifest.c:155-164. -/
def text (x : XmlOut) (t : Bytes) (sep : Bool) : XmlOut :=
  let x := ((x.endAttributes sep).addIndent).put (escapeText t)
  if sep then { x.put b!"\n" with newLine := true } else x

/-- `add_value_attribute`, manifest.c:211-219. -/
def valueAttribute (x : XmlOut) (d : ArgData) (attr arg : Bytes) : XmlOut :=
  match getValueOf d arg with
  | some v => x.attr attr v
  | none => x

/-- `add_value_element_and_text`, manifest.c:225-235. -/
def valueText (x : XmlOut) (d : ArgData) (elem arg : Bytes) (sep : Bool) : XmlOut :=
  match getValueOf d arg with
  | some v => ((x.openElem elem).text v sep).closeElem elem
  | none => x

/-- `add_value_element_and_attribute`, manifest.c:241-251. -/
def valueElem (x : XmlOut) (d : ArgData) (elem attr arg : Bytes) : XmlOut :=
  match getValueOf d arg with
  | some v => ((x.openElem elem).attr attr v).closeElem elem
  | none => x

/-- `addHeader`, manifest.c:257-264. -/
def header (x : XmlOut) : XmlOut :=
  let x := x.put b!"<?xml version=\"1.0\" encoding=\"utf-8\"?>\n"
  (((x.openElem b!"archive").openElem b!"manifest").attr b!"version" b!"1.0").closeElem b!"manifest"

/-- `addLibraryHeader`, manifest.c:271-294; `id` is what `getLibraryName` returns. -/
def libraryHeader (x : XmlOut) (d : ArgData) (id : Bytes) : XmlOut :=
  let x := (x.openElem b!"library").attr b!"id" id
  let x := x.valueAttribute d b!"enabled" b!"enabled"
  let x := x.valueText d b!"title" b!"title" false
  let x := x.valueText d b!"description" b!"description" true
  let x := match getValueOf d b!"version" with
    | some v =>
      let x := (x.openElem b!"version").attr b!"number" v
      ((x.valueAttribute d b!"build" b!"build").valueAttribute d b!"date" b!"date").closeElem b!"version"
    | none => x
  let x := x.valueElem d b!"language" b!"version" b!"language"
  let x := x.valueText d b!"copyright" b!"copyright" true
  x.valueText d b!"license" b!"license" true

end XmlOut

/-- `extractPlatform`, manifest.c:403-436: between the first `_` and the next `.`.  (The buffer holds
200 bytes; the names are the constants of utils.c:60.) -/
def extractPlatform (name : Bytes) : Bytes :=
  ((name.dropWhile (· ≠ 95)).drop 1).takeWhile (· ≠ 46)

namespace XmlOut

/-- One round of the loop of `addEncryption`, manifest.c:319-338. -/
def executable (x : XmlOut) (name : Bytes) : XmlOut :=
  ((((x.openElem b!"executable").attr b!"path" (b!".library/" ++ name)).attr b!"platform"
    (extractPlatform name)).attr b!"licensing" b!"true").closeElem b!"executable"

/-- `addEncryption`, manifest.c:299-341; `lves` are the entries of `lveList` that are not null. -/
def encryption (x : XmlOut) (d : ArgData) (lves : List Bytes) : XmlOut :=
  if usingEncryption d then
    (lves.foldl executable (x.openElem b!"encryption")).closeElem b!"encryption"
  else x

/-- `addIcon`, manifest.c:348-356. -/
def iconElem (x : XmlOut) (d : ArgData) (icon : Option Bytes) : Res XmlOut :=
  if containsKey d b!"icon" then
    match icon with
    | some p => .ok (((x.openElem b!"icon").attr b!"file" p).closeElem b!"icon")
    | none => .ub .nullDeref
  else .ok x

/-- The loop of `copyFileInformation`, manifest.c:450-474, on the remaining bytes of the file: `line`
is the used part of `lineBuffer` (200 bytes, zero behind it).  A byte 0xFF equals `EOF` as a `char`. -/
def copyLines (x : XmlOut) (first : Bool) (line : Bytes) : Bytes → Res XmlOut
  | [] => .ok x
  | c :: cs =>
    if c = 255 then .ok x
    else if c ≠ 10 then
      if line.length < 200 then copyLines x first (line ++ [c]) cs else .ub .oobWrite
    else if first then copyLines x false [] cs
    else if line.length < 200 then copyLines (x.addIndent.put (cstr line ++ b!"\n")) false [] cs
    else .ub .oobRead

/-- `copyFileInformation`, manifest.c:442-479; `none`: the file cannot be opened, and `fclose` gets a
null pointer. -/
def copyFileInformation (x : XmlOut) (file : Option Bytes) : Res XmlOut :=
  match file with
  | none => .ub .nullDeref
  | some content => do
    let x ← x.copyLines true [] content
    .ok { x with newLine := true }

/-- `addTools` and `addDependencies`, manifest.c:363-388; `read` is the file system. -/
def includeFile (x : XmlOut) (d : ArgData) (read : Bytes → Option Bytes) (arg : Bytes) : Res XmlOut :=
  match getValueOf d arg with
  | some path => x.copyFileInformation (read path)
  | none => .ok x

/-- `addFooter`, manifest.c:393-397. -/
def footer (x : XmlOut) : XmlOut := (x.closeElem b!"library").closeElem b!"archive"

end XmlOut

/-- `createManifestFile`, manifest.c:181-205: the contents of `manifest.xml`. -/
def createManifest (d : ArgData) (id : Bytes) (lves : List Bytes) (icon : Option Bytes)
    (read : Bytes → Option Bytes) : Res Bytes := do
  let x : XmlOut := ⟨[], 0, false, true⟩
  let x := (x.header.libraryHeader d id).encryption d lves
  let x ← x.iconElem d icon
  let x ← x.includeFile d read b!"tools"
  let x ← x.includeFile d read b!"dependencies"
  .ok x.footer.out

end Semla
