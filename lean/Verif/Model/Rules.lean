import Verif.Model.Osm

/-!
# Rules of tag filters given as text (io/network/osm_manual_importer.hpp)

Strings are lists of characters; `find` and `substr` as in `std::string`.
-/

set_option autoImplicit false

namespace MM.Rules

/-- `std::string::find(c, start)` (osm_manual_importer.hpp 58, 65, 69); `none` is `npos`. -/
def findFrom (s : List Char) (c : Char) (start : Nat) : Option Nat := ((s.drop start).findIdx? (fun x => decide (x = c))).map (· + start)

/-- `std::string::substr(pos, count)` (osm_manual_importer.hpp 63, 66, 74-77); no `count`: up to the end. -/
def substr (s : List Char) (pos : Nat) (count : Option Nat) : List Char :=
  match count with
  | some n => (s.drop pos).take n
  | none => s.drop pos

/-- osm_manual_importer.hpp 44-47; `value` is `none` if not `has_value`. -/
structure Rule where
  result : Bool
  key : List Char
  value : Option (List Char)
deriving DecidableEq

/-- osm_manual_importer.hpp 49-51 `parse_bool`. -/
def parseBool (s : List Char) : Bool := decide (s = "true".toList)

/-- osm_manual_importer.hpp 65-80, the rule of a token.  Without comma `comma_pos` is `npos`: `find` from there finds nothing, and
`comma_pos + 1` is zero. -/
def parseToken (t : List Char) : Rule :=
  match findFrom t ',' 0 with
  | none => ⟨parseBool t, substr t 0 none, none⟩
  | some c =>
    match findFrom t '=' c with
    | some e => ⟨parseBool (substr t 0 (some c)), substr t (c + 1) (some (e - c - 1)), some (substr t (e + 1) none)⟩
    | none => ⟨parseBool (substr t 0 (some c)), substr t (c + 1) none, none⟩

/-- osm_manual_importer.hpp 58-61: the end of the token. -/
def tokenEnd (s : List Char) (start : Nat) : Nat := (findFrom s '|' start).getD s.length

/-- osm_manual_importer.hpp 57-83, the loop; `none` if `fuel` does not suffice. -/
def loop (s : List Char) : Nat → Nat → Option (List Rule)
  | 0, start => if start < s.length then none else some []
  | fuel + 1, start =>
    if start < s.length then
      (loop s fuel (tokenEnd s start + 1)).map (fun rs => parseToken (substr s start (some (tokenEnd s start - start))) :: rs)
    else some []

/-- osm_manual_importer.hpp 53-85 `parse_rules`. -/
def parseRules (s : List Char) : Option (List Rule) := loop s s.length 0

/-- osm_manual_importer.hpp 96-100. -/
def toFilterRule (r : Rule) : Osm.Rule := ⟨r.result, String.ofList r.key, r.value.map String.ofList⟩

/-- osm_manual_importer.hpp 87-105 `create_tags_filter`; the default of a new `osmium::TagsFilter` is false. -/
def createFilter (s : List Char) : Option Osm.Filter :=
  (parseRules s).map fun
    | [] => ⟨false, []⟩
    | r :: rs => ⟨r.result, rs.map toFilterRule⟩

end MM.Rules
