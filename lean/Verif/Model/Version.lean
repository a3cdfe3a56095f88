import Verif.Model.KeyList

/-!
# What `--version` prints

Models `print_version` of `src/lve/lve.c` and the part of `src/CMakeLists.txt` that makes the list of tools it prints.
Lines of `tools.txt` are taken to be free of `;`, quotes and backslashes, to which CMake gives a meaning.
-/

namespace Semla

/-- `string(REGEX REPLACE ";" …)`, CMakeLists.txt:361, as it reads in the C program: the lines of `tools.txt`, each in
quotes.  No line makes one empty element. -/
def toolsJson (lines : List Bytes) : Bytes := b!"[\"" ++ (lines.intersperse b!"\", \"").flatten ++ b!"\"]"

/-- `print_version`, lve.c:44-60.  `tools` are the lines of `tools.txt`, if there is such a file when the build is
configured (CMakeLists.txt:358-367). -/
def versionText (name version : Bytes) (tools : Option (List Bytes)) : Bytes :=
  b!"{\n    \"name\": \"" ++ name ++ b!"\",\n    \"version\": \"" ++ version ++ b!"\",\n" ++
  (match tools with
   | some lines => b!"    \"tools\": " ++ toolsJson lines ++ b!",\n"
   | none => []) ++
  b!"}\n"

/-- What is printed, given the contents of `tools.txt`, CMakeLists.txt:360. -/
def printVersion (name version : Bytes) (toolsFile : Option Bytes) : Bytes :=
  versionText name version (toolsFile.map (cmakeStrings []))

end Semla
