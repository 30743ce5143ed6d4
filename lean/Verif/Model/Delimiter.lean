/-!
# Delimiters given as text (io/importer.cpp)
-/

set_option autoImplicit false

namespace MM.Delimiter

/-- importer.cpp 54-60, 87-93: the character after a backslash. -/
def unescape (c : Char) : Char := if c = 't' then '\t' else if c = 's' then ' ' else c

/-- importer.cpp 46-71, the static member `importer::parse_delimiter`; the argument is `escaped`. -/
def parse : Bool → List Char → List Char
  | _, [] => []
  | true, c :: cs => unescape c :: parse false cs
  | false, c :: cs => if c = '\\' then parse true cs else c :: parse false cs

/-- importer.cpp 73-100, the free function `parse_delimiter`. -/
def parseFree : Bool → List Char → List Char
  | _, [] => []
  | escaped, c :: cs =>
    if c = '\\' then parseFree true cs
    else if escaped then unescape c :: parseFree false cs
    else c :: parseFree false cs

end MM.Delimiter
