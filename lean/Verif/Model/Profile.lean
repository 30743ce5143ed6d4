import Verif.Model.Rules

/-!
# Profiles of the OpenStreetMap import (app/options.cpp, app/prepare.hpp, io/network/osm_car_importer.hpp, io/network/osm_pattern.hpp)

`std::regex_match` is decided by derivatives of the expression.  Texts are lists of characters.  Not modelled: `std::regex_error`
for texts that exceed the stack of the library, files that do not exist (C85), the storages of the handler.
-/

set_option autoImplicit false

namespace MM.Profile

/-- The parts of the expression of osm_pattern.hpp 23; `cls` is a class `[^…]`. -/
inductive Re where
  | fail
  | eps
  | chr (c : Char)
  | cls (excluded : List Char)
  | seq (a b : Re)
  | alt (a b : Re)
  | star (a : Re)

/-- A literal part (osm_pattern.hpp 23). -/
def word : List Char → Re
  | [] => .eps
  | c :: cs => .seq (.chr c) (word cs)

/-- `a+` (osm_pattern.hpp 23). -/
def plus (a : Re) : Re := .seq a (.star a)

/-- `a?` (osm_pattern.hpp 23). -/
def opt (a : Re) : Re := .alt .eps a

/-- `(true|false)` (osm_pattern.hpp 23). -/
def boolean : Re := .alt (word "true".toList) (word "false".toList)

/-- `[^,=]+` (osm_pattern.hpp 23). -/
def keyPart : Re := plus (.cls [',', '='])

/-- `(=[^,|]+)?` (osm_pattern.hpp 23). -/
def valuePart : Re := opt (.seq (.chr '=') (plus (.cls [',', '|'])))

/-- `\\|(true|false),[^,=]+(=[^,|]+)?` (osm_pattern.hpp 23). -/
def rulePart : Re := .seq (.chr '|') (.seq boolean (.seq (.chr ',') (.seq keyPart valuePart)))

/-- osm_pattern.hpp 23. -/
def pattern : Re := .seq boolean (.star rulePart)

/-- The expression matches the empty text (`std::regex_match`, app/options.cpp 106). -/
def Re.nullable : Re → Bool
  | .fail => false
  | .eps => true
  | .chr _ => false
  | .cls _ => false
  | .seq a b => a.nullable && b.nullable
  | .alt a b => a.nullable || b.nullable
  | .star _ => true

/-- What is left to match after a character (`std::regex_match`, app/options.cpp 106). -/
def Re.deriv : Re → Char → Re
  | .fail, _ => .fail
  | .eps, _ => .fail
  | .chr x, c => if x = c then .eps else .fail
  | .cls ex, c => if c ∈ ex then .fail else .eps
  | .seq a b, c => if a.nullable then .alt (.seq (a.deriv c) b) (b.deriv c) else .seq (a.deriv c) b
  | .alt a b, c => .alt (a.deriv c) (b.deriv c)
  | .star a, c => .seq (a.deriv c) (.star a)

/-- `std::regex_match` (app/options.cpp 106, 111, 116, 121). -/
def Re.test : Re → List Char → Bool
  | r, [] => r.nullable
  | r, c :: cs => (r.deriv c).test cs

/-- Options of the import (app/options.hpp 116-120). -/
structure Import where
  profile : String
  query : List Char
  filter : List Char
  oneway : List Char
  reverse : List Char

/-- Values of the options that are not given (app/options.cpp 585, 589, 604, 611, 619). -/
def Import.default : Import := ⟨"car", "true".toList, "true".toList, "false".toList, "false".toList⟩

/-- app/options.cpp 100-127 `prepare_osm_import_data::correct`; false: `invalid_argument` is thrown. -/
def correct (i : Import) : Bool :=
  if i.profile ≠ "car" ∧ i.profile ≠ "manual" then false
  else if i.profile = "manual" then
    pattern.test i.query && pattern.test i.filter && pattern.test i.oneway && pattern.test i.reverse
  else true

/-- osm_car_importer.hpp 34-58; one-way filters of osm_importer.hpp 68-84. -/
def carFilters : Osm.Filters where
  query := ⟨false, [⟨false, "highway", some "footway"⟩, ⟨false, "highway", some "pedestrian"⟩, ⟨false, "highway", some "steps"⟩,
    ⟨false, "highway", some "bridleway"⟩, ⟨false, "highway", some "construction"⟩, ⟨false, "highway", some "cycleway"⟩,
    ⟨false, "highway", some "path"⟩, ⟨false, "highway", some "bus_guideway"⟩, ⟨false, "highway", some "platform"⟩,
    ⟨true, "highway", none⟩]⟩
  filter := ⟨true, []⟩
  oneway := Osm.defaults.oneway
  reverse := Osm.defaults.reverse

/-- osm_manual_importer.hpp 107-121; `none`: parsing would not end (never, C41). -/
def manualFilters (i : Import) : Option Osm.Filters :=
  (Rules.createFilter i.query).bind fun q => (Rules.createFilter i.filter).bind fun f =>
    (Rules.createFilter i.oneway).bind fun o => (Rules.createFilter i.reverse).map fun r => ⟨q, f, o, r⟩

/-- app/prepare.hpp 44-54: the importer that the profile names; no importer for another profile. -/
def filters (i : Import) : Option Osm.Filters :=
  if i.profile = "car" then some carFilters else if i.profile = "manual" then manualFilters i else none

/-- app/options.cpp 100-127, then app/prepare.hpp 39-57 `_import_osm` of the elements of the files. -/
def importOsm {P : Type} (i : Import) (es : List (Osm.Element P)) : Outcome (Osm.St P) :=
  if correct i then
    match filters i with
    | some f => Osm.run f Osm.St.empty es
    | none => .ok Osm.St.empty
  else .throws

end MM.Profile
