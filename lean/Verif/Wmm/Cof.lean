/-!
# The coefficient file `crates/aether_catalogs/catalog/wmm/WMM2025COF/WMM.COF`

Its lines, as character codes. `WMM2025.COF` in the same directory has the same content.
-/

namespace Verif.Wmm

/-- `catalog/wmm/WMM2025COF/WMM.COF:1-93`, line by line. -/
def cofLines : List (List Nat) := [
  [32, 32, 32, 32, 50, 48, 50, 53, 46, 48, 32, 32, 32, 32, 32, 32, 32, 32, 32, 32, 32, 32, 87, 77, 77, 45, 50, 48, 50, 53, 32, 32, 32, 32, 32, 49, 49, 47, 49, 51, 47, 50, 48, 50, 52],
  [32, 32, 49, 32, 32, 48, 32, 32, 45, 50, 57, 51, 53, 49, 46, 56, 32, 32, 32, 32, 32, 32, 32, 48, 46, 48, 32, 32, 32, 32, 32, 32, 32, 49, 50, 46, 48, 32, 32, 32, 32, 32, 32, 32, 32, 48, 46, 48],
  [32, 32, 49, 32, 32, 49, 32, 32, 32, 45, 49, 52, 49, 48, 46, 56, 32, 32, 32, 32, 52, 53, 52, 53, 46, 52, 32, 32, 32, 32, 32, 32, 32, 32, 57, 46, 55, 32, 32, 32, 32, 32, 32, 45, 50, 49, 46, 53],
  [32, 32, 50, 32, 32, 48, 32, 32, 32, 45, 50, 53, 53, 54, 46, 54, 32, 32, 32, 32, 32, 32, 32, 48, 46, 48, 32, 32, 32, 32, 32, 32, 45, 49, 49, 46, 54, 32, 32, 32, 32, 32, 32, 32, 32, 48, 46, 48],
  [32, 32, 50, 32, 32, 49, 32, 32, 32, 32, 50, 57, 53, 49, 46, 49, 32, 32, 32, 45, 51, 49, 51, 51, 46, 54, 32, 32, 32, 32, 32, 32, 32, 45, 53, 46, 50, 32, 32, 32, 32, 32, 32, 45, 50, 55, 46, 55],
  [32, 32, 50, 32, 32, 50, 32, 32, 32, 32, 49, 54, 52, 57, 46, 51, 32, 32, 32, 32, 45, 56, 49, 53, 46, 49, 32, 32, 32, 32, 32, 32, 32, 45, 56, 46, 48, 32, 32, 32, 32, 32, 32, 45, 49, 50, 46, 49],
  [32, 32, 51, 32, 32, 48, 32, 32, 32, 32, 49, 51, 54, 49, 46, 48, 32, 32, 32, 32, 32, 32, 32, 48, 46, 48, 32, 32, 32, 32, 32, 32, 32, 45, 49, 46, 51, 32, 32, 32, 32, 32, 32, 32, 32, 48, 46, 48],
  [32, 32, 51, 32, 32, 49, 32, 32, 32, 45, 50, 52, 48, 52, 46, 49, 32, 32, 32, 32, 32, 45, 53, 54, 46, 54, 32, 32, 32, 32, 32, 32, 32, 45, 52, 46, 50, 32, 32, 32, 32, 32, 32, 32, 32, 52, 46, 48],
  [32, 32, 51, 32, 32, 50, 32, 32, 32, 32, 49, 50, 52, 51, 46, 56, 32, 32, 32, 32, 32, 50, 51, 55, 46, 53, 32, 32, 32, 32, 32, 32, 32, 32, 48, 46, 52, 32, 32, 32, 32, 32, 32, 32, 45, 48, 46, 51],
  [32, 32, 51, 32, 32, 51, 32, 32, 32, 32, 32, 52, 53, 51, 46, 54, 32, 32, 32, 32, 45, 53, 52, 57, 46, 53, 32, 32, 32, 32, 32, 32, 45, 49, 53, 46, 54, 32, 32, 32, 32, 32, 32, 32, 45, 52, 46, 49],
  [32, 32, 52, 32, 32, 48, 32, 32, 32, 32, 32, 56, 57, 53, 46, 48, 32, 32, 32, 32, 32, 32, 32, 48, 46, 48, 32, 32, 32, 32, 32, 32, 32, 45, 49, 46, 54, 32, 32, 32, 32, 32, 32, 32, 32, 48, 46, 48],
  [32, 32, 52, 32, 32, 49, 32, 32, 32, 32, 32, 55, 57, 57, 46, 53, 32, 32, 32, 32, 32, 50, 55, 56, 46, 54, 32, 32, 32, 32, 32, 32, 32, 45, 50, 46, 52, 32, 32, 32, 32, 32, 32, 32, 45, 49, 46, 49],
  [32, 32, 52, 32, 32, 50, 32, 32, 32, 32, 32, 32, 53, 53, 46, 55, 32, 32, 32, 32, 45, 49, 51, 51, 46, 57, 32, 32, 32, 32, 32, 32, 32, 45, 54, 46, 48, 32, 32, 32, 32, 32, 32, 32, 32, 52, 46, 49],
  [32, 32, 52, 32, 32, 51, 32, 32, 32, 32, 45, 50, 56, 49, 46, 49, 32, 32, 32, 32, 32, 50, 49, 50, 46, 48, 32, 32, 32, 32, 32, 32, 32, 32, 53, 46, 54, 32, 32, 32, 32, 32, 32, 32, 32, 49, 46, 54],
  [32, 32, 52, 32, 32, 52, 32, 32, 32, 32, 32, 32, 49, 50, 46, 49, 32, 32, 32, 32, 45, 51, 55, 53, 46, 54, 32, 32, 32, 32, 32, 32, 32, 45, 55, 46, 48, 32, 32, 32, 32, 32, 32, 32, 45, 52, 46, 52],
  [32, 32, 53, 32, 32, 48, 32, 32, 32, 32, 45, 50, 51, 51, 46, 50, 32, 32, 32, 32, 32, 32, 32, 48, 46, 48, 32, 32, 32, 32, 32, 32, 32, 32, 48, 46, 54, 32, 32, 32, 32, 32, 32, 32, 32, 48, 46, 48],
  [32, 32, 53, 32, 32, 49, 32, 32, 32, 32, 32, 51, 54, 56, 46, 57, 32, 32, 32, 32, 32, 32, 52, 53, 46, 52, 32, 32, 32, 32, 32, 32, 32, 32, 49, 46, 52, 32, 32, 32, 32, 32, 32, 32, 45, 48, 46, 53],
  [32, 32, 53, 32, 32, 50, 32, 32, 32, 32, 32, 49, 56, 55, 46, 50, 32, 32, 32, 32, 32, 50, 50, 48, 46, 50, 32, 32, 32, 32, 32, 32, 32, 32, 48, 46, 48, 32, 32, 32, 32, 32, 32, 32, 32, 50, 46, 50],
  [32, 32, 53, 32, 32, 51, 32, 32, 32, 32, 45, 49, 51, 56, 46, 55, 32, 32, 32, 32, 45, 49, 50, 50, 46, 57, 32, 32, 32, 32, 32, 32, 32, 32, 48, 46, 54, 32, 32, 32, 32, 32, 32, 32, 32, 48, 46, 52],
  [32, 32, 53, 32, 32, 52, 32, 32, 32, 32, 45, 49, 52, 50, 46, 48, 32, 32, 32, 32, 32, 32, 52, 51, 46, 48, 32, 32, 32, 32, 32, 32, 32, 32, 50, 46, 50, 32, 32, 32, 32, 32, 32, 32, 32, 49, 46, 55],
  [32, 32, 53, 32, 32, 53, 32, 32, 32, 32, 32, 32, 50, 48, 46, 57, 32, 32, 32, 32, 32, 49, 48, 54, 46, 49, 32, 32, 32, 32, 32, 32, 32, 32, 48, 46, 57, 32, 32, 32, 32, 32, 32, 32, 32, 49, 46, 57],
  [32, 32, 54, 32, 32, 48, 32, 32, 32, 32, 32, 32, 54, 52, 46, 52, 32, 32, 32, 32, 32, 32, 32, 48, 46, 48, 32, 32, 32, 32, 32, 32, 32, 45, 48, 46, 50, 32, 32, 32, 32, 32, 32, 32, 32, 48, 46, 48],
  [32, 32, 54, 32, 32, 49, 32, 32, 32, 32, 32, 32, 54, 51, 46, 56, 32, 32, 32, 32, 32, 45, 49, 56, 46, 52, 32, 32, 32, 32, 32, 32, 32, 45, 48, 46, 52, 32, 32, 32, 32, 32, 32, 32, 32, 48, 46, 51],
  [32, 32, 54, 32, 32, 50, 32, 32, 32, 32, 32, 32, 55, 54, 46, 57, 32, 32, 32, 32, 32, 32, 49, 54, 46, 56, 32, 32, 32, 32, 32, 32, 32, 32, 48, 46, 57, 32, 32, 32, 32, 32, 32, 32, 45, 49, 46, 54],
  [32, 32, 54, 32, 32, 51, 32, 32, 32, 32, 45, 49, 49, 53, 46, 55, 32, 32, 32, 32, 32, 32, 52, 56, 46, 56, 32, 32, 32, 32, 32, 32, 32, 32, 49, 46, 50, 32, 32, 32, 32, 32, 32, 32, 45, 48, 46, 52],
  [32, 32, 54, 32, 32, 52, 32, 32, 32, 32, 32, 45, 52, 48, 46, 57, 32, 32, 32, 32, 32, 45, 53, 57, 46, 56, 32, 32, 32, 32, 32, 32, 32, 45, 48, 46, 57, 32, 32, 32, 32, 32, 32, 32, 32, 48, 46, 57],
  [32, 32, 54, 32, 32, 53, 32, 32, 32, 32, 32, 32, 49, 52, 46, 57, 32, 32, 32, 32, 32, 32, 49, 48, 46, 57, 32, 32, 32, 32, 32, 32, 32, 32, 48, 46, 51, 32, 32, 32, 32, 32, 32, 32, 32, 48, 46, 55],
  [32, 32, 54, 32, 32, 54, 32, 32, 32, 32, 32, 45, 54, 48, 46, 55, 32, 32, 32, 32, 32, 32, 55, 50, 46, 55, 32, 32, 32, 32, 32, 32, 32, 32, 48, 46, 57, 32, 32, 32, 32, 32, 32, 32, 32, 48, 46, 57],
  [32, 32, 55, 32, 32, 48, 32, 32, 32, 32, 32, 32, 55, 57, 46, 53, 32, 32, 32, 32, 32, 32, 32, 48, 46, 48, 32, 32, 32, 32, 32, 32, 32, 45, 48, 46, 48, 32, 32, 32, 32, 32, 32, 32, 32, 48, 46, 48],
  [32, 32, 55, 32, 32, 49, 32, 32, 32, 32, 32, 45, 55, 55, 46, 48, 32, 32, 32, 32, 32, 45, 52, 56, 46, 57, 32, 32, 32, 32, 32, 32, 32, 45, 48, 46, 49, 32, 32, 32, 32, 32, 32, 32, 32, 48, 46, 54],
  [32, 32, 55, 32, 32, 50, 32, 32, 32, 32, 32, 32, 45, 56, 46, 56, 32, 32, 32, 32, 32, 45, 49, 52, 46, 52, 32, 32, 32, 32, 32, 32, 32, 45, 48, 46, 49, 32, 32, 32, 32, 32, 32, 32, 32, 48, 46, 53],
  [32, 32, 55, 32, 32, 51, 32, 32, 32, 32, 32, 32, 53, 57, 46, 51, 32, 32, 32, 32, 32, 32, 45, 49, 46, 48, 32, 32, 32, 32, 32, 32, 32, 32, 48, 46, 53, 32, 32, 32, 32, 32, 32, 32, 45, 48, 46, 56],
  [32, 32, 55, 32, 32, 52, 32, 32, 32, 32, 32, 32, 49, 53, 46, 56, 32, 32, 32, 32, 32, 32, 50, 51, 46, 52, 32, 32, 32, 32, 32, 32, 32, 45, 48, 46, 49, 32, 32, 32, 32, 32, 32, 32, 32, 48, 46, 48],
  [32, 32, 55, 32, 32, 53, 32, 32, 32, 32, 32, 32, 32, 50, 46, 53, 32, 32, 32, 32, 32, 32, 45, 55, 46, 52, 32, 32, 32, 32, 32, 32, 32, 45, 48, 46, 56, 32, 32, 32, 32, 32, 32, 32, 45, 49, 46, 48],
  [32, 32, 55, 32, 32, 54, 32, 32, 32, 32, 32, 45, 49, 49, 46, 49, 32, 32, 32, 32, 32, 45, 50, 53, 46, 49, 32, 32, 32, 32, 32, 32, 32, 45, 48, 46, 56, 32, 32, 32, 32, 32, 32, 32, 32, 48, 46, 54],
  [32, 32, 55, 32, 32, 55, 32, 32, 32, 32, 32, 32, 49, 52, 46, 50, 32, 32, 32, 32, 32, 32, 45, 50, 46, 51, 32, 32, 32, 32, 32, 32, 32, 32, 48, 46, 56, 32, 32, 32, 32, 32, 32, 32, 45, 48, 46, 50],
  [32, 32, 56, 32, 32, 48, 32, 32, 32, 32, 32, 32, 50, 51, 46, 50, 32, 32, 32, 32, 32, 32, 32, 48, 46, 48, 32, 32, 32, 32, 32, 32, 32, 45, 48, 46, 49, 32, 32, 32, 32, 32, 32, 32, 32, 48, 46, 48],
  [32, 32, 56, 32, 32, 49, 32, 32, 32, 32, 32, 32, 49, 48, 46, 56, 32, 32, 32, 32, 32, 32, 32, 55, 46, 49, 32, 32, 32, 32, 32, 32, 32, 32, 48, 46, 50, 32, 32, 32, 32, 32, 32, 32, 45, 48, 46, 50],
  [32, 32, 56, 32, 32, 50, 32, 32, 32, 32, 32, 45, 49, 55, 46, 53, 32, 32, 32, 32, 32, 45, 49, 50, 46, 54, 32, 32, 32, 32, 32, 32, 32, 32, 48, 46, 48, 32, 32, 32, 32, 32, 32, 32, 32, 48, 46, 53],
  [32, 32, 56, 32, 32, 51, 32, 32, 32, 32, 32, 32, 32, 50, 46, 48, 32, 32, 32, 32, 32, 32, 49, 49, 46, 52, 32, 32, 32, 32, 32, 32, 32, 32, 48, 46, 53, 32, 32, 32, 32, 32, 32, 32, 45, 48, 46, 52],
  [32, 32, 56, 32, 32, 52, 32, 32, 32, 32, 32, 45, 50, 49, 46, 55, 32, 32, 32, 32, 32, 32, 45, 57, 46, 55, 32, 32, 32, 32, 32, 32, 32, 45, 48, 46, 49, 32, 32, 32, 32, 32, 32, 32, 32, 48, 46, 52],
  [32, 32, 56, 32, 32, 53, 32, 32, 32, 32, 32, 32, 49, 54, 46, 57, 32, 32, 32, 32, 32, 32, 49, 50, 46, 55, 32, 32, 32, 32, 32, 32, 32, 32, 48, 46, 51, 32, 32, 32, 32, 32, 32, 32, 45, 48, 46, 53],
  [32, 32, 56, 32, 32, 54, 32, 32, 32, 32, 32, 32, 49, 53, 46, 48, 32, 32, 32, 32, 32, 32, 32, 48, 46, 55, 32, 32, 32, 32, 32, 32, 32, 32, 48, 46, 50, 32, 32, 32, 32, 32, 32, 32, 45, 48, 46, 54],
  [32, 32, 56, 32, 32, 55, 32, 32, 32, 32, 32, 45, 49, 54, 46, 56, 32, 32, 32, 32, 32, 32, 45, 53, 46, 50, 32, 32, 32, 32, 32, 32, 32, 45, 48, 46, 48, 32, 32, 32, 32, 32, 32, 32, 32, 48, 46, 51],
  [32, 32, 56, 32, 32, 56, 32, 32, 32, 32, 32, 32, 32, 48, 46, 57, 32, 32, 32, 32, 32, 32, 32, 51, 46, 57, 32, 32, 32, 32, 32, 32, 32, 32, 48, 46, 50, 32, 32, 32, 32, 32, 32, 32, 32, 48, 46, 50],
  [32, 32, 57, 32, 32, 48, 32, 32, 32, 32, 32, 32, 32, 52, 46, 54, 32, 32, 32, 32, 32, 32, 32, 48, 46, 48, 32, 32, 32, 32, 32, 32, 32, 45, 48, 46, 48, 32, 32, 32, 32, 32, 32, 32, 32, 48, 46, 48],
  [32, 32, 57, 32, 32, 49, 32, 32, 32, 32, 32, 32, 32, 55, 46, 56, 32, 32, 32, 32, 32, 45, 50, 52, 46, 56, 32, 32, 32, 32, 32, 32, 32, 45, 48, 46, 49, 32, 32, 32, 32, 32, 32, 32, 45, 48, 46, 51],
  [32, 32, 57, 32, 32, 50, 32, 32, 32, 32, 32, 32, 32, 51, 46, 48, 32, 32, 32, 32, 32, 32, 49, 50, 46, 50, 32, 32, 32, 32, 32, 32, 32, 32, 48, 46, 49, 32, 32, 32, 32, 32, 32, 32, 32, 48, 46, 51],
  [32, 32, 57, 32, 32, 51, 32, 32, 32, 32, 32, 32, 45, 48, 46, 50, 32, 32, 32, 32, 32, 32, 32, 56, 46, 51, 32, 32, 32, 32, 32, 32, 32, 32, 48, 46, 51, 32, 32, 32, 32, 32, 32, 32, 45, 48, 46, 51],
  [32, 32, 57, 32, 32, 52, 32, 32, 32, 32, 32, 32, 45, 50, 46, 53, 32, 32, 32, 32, 32, 32, 45, 51, 46, 51, 32, 32, 32, 32, 32, 32, 32, 45, 48, 46, 51, 32, 32, 32, 32, 32, 32, 32, 32, 48, 46, 51],
  [32, 32, 57, 32, 32, 53, 32, 32, 32, 32, 32, 45, 49, 51, 46, 49, 32, 32, 32, 32, 32, 32, 45, 53, 46, 50, 32, 32, 32, 32, 32, 32, 32, 32, 48, 46, 48, 32, 32, 32, 32, 32, 32, 32, 32, 48, 46, 50],
  [32, 32, 57, 32, 32, 54, 32, 32, 32, 32, 32, 32, 32, 50, 46, 52, 32, 32, 32, 32, 32, 32, 32, 55, 46, 50, 32, 32, 32, 32, 32, 32, 32, 32, 48, 46, 51, 32, 32, 32, 32, 32, 32, 32, 45, 48, 46, 49],
  [32, 32, 57, 32, 32, 55, 32, 32, 32, 32, 32, 32, 32, 56, 46, 54, 32, 32, 32, 32, 32, 32, 45, 48, 46, 54, 32, 32, 32, 32, 32, 32, 32, 45, 48, 46, 49, 32, 32, 32, 32, 32, 32, 32, 45, 48, 46, 50],
  [32, 32, 57, 32, 32, 56, 32, 32, 32, 32, 32, 32, 45, 56, 46, 55, 32, 32, 32, 32, 32, 32, 32, 48, 46, 56, 32, 32, 32, 32, 32, 32, 32, 32, 48, 46, 49, 32, 32, 32, 32, 32, 32, 32, 32, 48, 46, 52],
  [32, 32, 57, 32, 32, 57, 32, 32, 32, 32, 32, 45, 49, 50, 46, 57, 32, 32, 32, 32, 32, 32, 49, 48, 46, 48, 32, 32, 32, 32, 32, 32, 32, 45, 48, 46, 49, 32, 32, 32, 32, 32, 32, 32, 32, 48, 46, 49],
  [32, 49, 48, 32, 32, 48, 32, 32, 32, 32, 32, 32, 45, 49, 46, 51, 32, 32, 32, 32, 32, 32, 32, 48, 46, 48, 32, 32, 32, 32, 32, 32, 32, 32, 48, 46, 49, 32, 32, 32, 32, 32, 32, 32, 32, 48, 46, 48],
  [32, 49, 48, 32, 32, 49, 32, 32, 32, 32, 32, 32, 45, 54, 46, 52, 32, 32, 32, 32, 32, 32, 32, 51, 46, 51, 32, 32, 32, 32, 32, 32, 32, 32, 48, 46, 48, 32, 32, 32, 32, 32, 32, 32, 32, 48, 46, 48],
  [32, 49, 48, 32, 32, 50, 32, 32, 32, 32, 32, 32, 32, 48, 46, 50, 32, 32, 32, 32, 32, 32, 32, 48, 46, 48, 32, 32, 32, 32, 32, 32, 32, 32, 48, 46, 49, 32, 32, 32, 32, 32, 32, 32, 45, 48, 46, 48],
  [32, 49, 48, 32, 32, 51, 32, 32, 32, 32, 32, 32, 32, 50, 46, 48, 32, 32, 32, 32, 32, 32, 32, 50, 46, 52, 32, 32, 32, 32, 32, 32, 32, 32, 48, 46, 49, 32, 32, 32, 32, 32, 32, 32, 45, 48, 46, 50],
  [32, 49, 48, 32, 32, 52, 32, 32, 32, 32, 32, 32, 45, 49, 46, 48, 32, 32, 32, 32, 32, 32, 32, 53, 46, 51, 32, 32, 32, 32, 32, 32, 32, 45, 48, 46, 48, 32, 32, 32, 32, 32, 32, 32, 32, 48, 46, 49],
  [32, 49, 48, 32, 32, 53, 32, 32, 32, 32, 32, 32, 45, 48, 46, 54, 32, 32, 32, 32, 32, 32, 45, 57, 46, 49, 32, 32, 32, 32, 32, 32, 32, 45, 48, 46, 51, 32, 32, 32, 32, 32, 32, 32, 45, 48, 46, 49],
  [32, 49, 48, 32, 32, 54, 32, 32, 32, 32, 32, 32, 45, 48, 46, 57, 32, 32, 32, 32, 32, 32, 32, 48, 46, 52, 32, 32, 32, 32, 32, 32, 32, 32, 48, 46, 48, 32, 32, 32, 32, 32, 32, 32, 32, 48, 46, 49],
  [32, 49, 48, 32, 32, 55, 32, 32, 32, 32, 32, 32, 32, 49, 46, 53, 32, 32, 32, 32, 32, 32, 45, 52, 46, 50, 32, 32, 32, 32, 32, 32, 32, 45, 48, 46, 49, 32, 32, 32, 32, 32, 32, 32, 32, 48, 46, 48],
  [32, 49, 48, 32, 32, 56, 32, 32, 32, 32, 32, 32, 32, 48, 46, 57, 32, 32, 32, 32, 32, 32, 45, 51, 46, 56, 32, 32, 32, 32, 32, 32, 32, 45, 48, 46, 49, 32, 32, 32, 32, 32, 32, 32, 45, 48, 46, 49],
  [32, 49, 48, 32, 32, 57, 32, 32, 32, 32, 32, 32, 45, 50, 46, 55, 32, 32, 32, 32, 32, 32, 32, 48, 46, 57, 32, 32, 32, 32, 32, 32, 32, 45, 48, 46, 48, 32, 32, 32, 32, 32, 32, 32, 32, 48, 46, 50],
  [32, 49, 48, 32, 49, 48, 32, 32, 32, 32, 32, 32, 45, 51, 46, 57, 32, 32, 32, 32, 32, 32, 45, 57, 46, 49, 32, 32, 32, 32, 32, 32, 32, 45, 48, 46, 48, 32, 32, 32, 32, 32, 32, 32, 45, 48, 46, 48],
  [32, 49, 49, 32, 32, 48, 32, 32, 32, 32, 32, 32, 32, 50, 46, 57, 32, 32, 32, 32, 32, 32, 32, 48, 46, 48, 32, 32, 32, 32, 32, 32, 32, 32, 48, 46, 48, 32, 32, 32, 32, 32, 32, 32, 32, 48, 46, 48],
  [32, 49, 49, 32, 32, 49, 32, 32, 32, 32, 32, 32, 45, 49, 46, 53, 32, 32, 32, 32, 32, 32, 32, 48, 46, 48, 32, 32, 32, 32, 32, 32, 32, 45, 48, 46, 48, 32, 32, 32, 32, 32, 32, 32, 45, 48, 46, 48],
  [32, 49, 49, 32, 32, 50, 32, 32, 32, 32, 32, 32, 45, 50, 46, 53, 32, 32, 32, 32, 32, 32, 32, 50, 46, 57, 32, 32, 32, 32, 32, 32, 32, 32, 48, 46, 48, 32, 32, 32, 32, 32, 32, 32, 32, 48, 46, 49],
  [32, 49, 49, 32, 32, 51, 32, 32, 32, 32, 32, 32, 32, 50, 46, 52, 32, 32, 32, 32, 32, 32, 45, 48, 46, 54, 32, 32, 32, 32, 32, 32, 32, 32, 48, 46, 48, 32, 32, 32, 32, 32, 32, 32, 45, 48, 46, 48],
  [32, 49, 49, 32, 32, 52, 32, 32, 32, 32, 32, 32, 45, 48, 46, 54, 32, 32, 32, 32, 32, 32, 32, 48, 46, 50, 32, 32, 32, 32, 32, 32, 32, 32, 48, 46, 48, 32, 32, 32, 32, 32, 32, 32, 32, 48, 46, 49],
  [32, 49, 49, 32, 32, 53, 32, 32, 32, 32, 32, 32, 45, 48, 46, 49, 32, 32, 32, 32, 32, 32, 32, 48, 46, 53, 32, 32, 32, 32, 32, 32, 32, 45, 48, 46, 49, 32, 32, 32, 32, 32, 32, 32, 45, 48, 46, 48],
  [32, 49, 49, 32, 32, 54, 32, 32, 32, 32, 32, 32, 45, 48, 46, 54, 32, 32, 32, 32, 32, 32, 45, 48, 46, 51, 32, 32, 32, 32, 32, 32, 32, 32, 48, 46, 48, 32, 32, 32, 32, 32, 32, 32, 45, 48, 46, 48],
  [32, 49, 49, 32, 32, 55, 32, 32, 32, 32, 32, 32, 45, 48, 46, 49, 32, 32, 32, 32, 32, 32, 45, 49, 46, 50, 32, 32, 32, 32, 32, 32, 32, 45, 48, 46, 48, 32, 32, 32, 32, 32, 32, 32, 32, 48, 46, 49],
  [32, 49, 49, 32, 32, 56, 32, 32, 32, 32, 32, 32, 32, 49, 46, 49, 32, 32, 32, 32, 32, 32, 45, 49, 46, 55, 32, 32, 32, 32, 32, 32, 32, 45, 48, 46, 49, 32, 32, 32, 32, 32, 32, 32, 45, 48, 46, 48],
  [32, 49, 49, 32, 32, 57, 32, 32, 32, 32, 32, 32, 45, 49, 46, 48, 32, 32, 32, 32, 32, 32, 45, 50, 46, 57, 32, 32, 32, 32, 32, 32, 32, 45, 48, 46, 49, 32, 32, 32, 32, 32, 32, 32, 32, 48, 46, 48],
  [32, 49, 49, 32, 49, 48, 32, 32, 32, 32, 32, 32, 45, 48, 46, 50, 32, 32, 32, 32, 32, 32, 45, 49, 46, 56, 32, 32, 32, 32, 32, 32, 32, 45, 48, 46, 49, 32, 32, 32, 32, 32, 32, 32, 32, 48, 46, 48],
  [32, 49, 49, 32, 49, 49, 32, 32, 32, 32, 32, 32, 32, 50, 46, 54, 32, 32, 32, 32, 32, 32, 45, 50, 46, 51, 32, 32, 32, 32, 32, 32, 32, 45, 48, 46, 49, 32, 32, 32, 32, 32, 32, 32, 32, 48, 46, 48],
  [32, 49, 50, 32, 32, 48, 32, 32, 32, 32, 32, 32, 45, 50, 46, 48, 32, 32, 32, 32, 32, 32, 32, 48, 46, 48, 32, 32, 32, 32, 32, 32, 32, 32, 48, 46, 48, 32, 32, 32, 32, 32, 32, 32, 32, 48, 46, 48],
  [32, 49, 50, 32, 32, 49, 32, 32, 32, 32, 32, 32, 45, 48, 46, 50, 32, 32, 32, 32, 32, 32, 45, 49, 46, 51, 32, 32, 32, 32, 32, 32, 32, 32, 48, 46, 48, 32, 32, 32, 32, 32, 32, 32, 45, 48, 46, 48],
  [32, 49, 50, 32, 32, 50, 32, 32, 32, 32, 32, 32, 32, 48, 46, 51, 32, 32, 32, 32, 32, 32, 32, 48, 46, 55, 32, 32, 32, 32, 32, 32, 32, 45, 48, 46, 48, 32, 32, 32, 32, 32, 32, 32, 32, 48, 46, 48],
  [32, 49, 50, 32, 32, 51, 32, 32, 32, 32, 32, 32, 32, 49, 46, 50, 32, 32, 32, 32, 32, 32, 32, 49, 46, 48, 32, 32, 32, 32, 32, 32, 32, 45, 48, 46, 48, 32, 32, 32, 32, 32, 32, 32, 45, 48, 46, 49],
  [32, 49, 50, 32, 32, 52, 32, 32, 32, 32, 32, 32, 45, 49, 46, 51, 32, 32, 32, 32, 32, 32, 45, 49, 46, 52, 32, 32, 32, 32, 32, 32, 32, 45, 48, 46, 48, 32, 32, 32, 32, 32, 32, 32, 32, 48, 46, 49],
  [32, 49, 50, 32, 32, 53, 32, 32, 32, 32, 32, 32, 32, 48, 46, 54, 32, 32, 32, 32, 32, 32, 45, 48, 46, 48, 32, 32, 32, 32, 32, 32, 32, 45, 48, 46, 48, 32, 32, 32, 32, 32, 32, 32, 45, 48, 46, 48],
  [32, 49, 50, 32, 32, 54, 32, 32, 32, 32, 32, 32, 32, 48, 46, 54, 32, 32, 32, 32, 32, 32, 32, 48, 46, 54, 32, 32, 32, 32, 32, 32, 32, 32, 48, 46, 49, 32, 32, 32, 32, 32, 32, 32, 45, 48, 46, 48],
  [32, 49, 50, 32, 32, 55, 32, 32, 32, 32, 32, 32, 32, 48, 46, 53, 32, 32, 32, 32, 32, 32, 45, 48, 46, 49, 32, 32, 32, 32, 32, 32, 32, 45, 48, 46, 48, 32, 32, 32, 32, 32, 32, 32, 45, 48, 46, 48],
  [32, 49, 50, 32, 32, 56, 32, 32, 32, 32, 32, 32, 45, 48, 46, 49, 32, 32, 32, 32, 32, 32, 32, 48, 46, 56, 32, 32, 32, 32, 32, 32, 32, 32, 48, 46, 48, 32, 32, 32, 32, 32, 32, 32, 32, 48, 46, 48],
  [32, 49, 50, 32, 32, 57, 32, 32, 32, 32, 32, 32, 45, 48, 46, 52, 32, 32, 32, 32, 32, 32, 32, 48, 46, 49, 32, 32, 32, 32, 32, 32, 32, 32, 48, 46, 48, 32, 32, 32, 32, 32, 32, 32, 45, 48, 46, 48],
  [32, 49, 50, 32, 49, 48, 32, 32, 32, 32, 32, 32, 45, 48, 46, 50, 32, 32, 32, 32, 32, 32, 45, 49, 46, 48, 32, 32, 32, 32, 32, 32, 32, 45, 48, 46, 49, 32, 32, 32, 32, 32, 32, 32, 45, 48, 46, 48],
  [32, 49, 50, 32, 49, 49, 32, 32, 32, 32, 32, 32, 45, 49, 46, 51, 32, 32, 32, 32, 32, 32, 32, 48, 46, 49, 32, 32, 32, 32, 32, 32, 32, 45, 48, 46, 48, 32, 32, 32, 32, 32, 32, 32, 32, 48, 46, 48],
  [32, 49, 50, 32, 49, 50, 32, 32, 32, 32, 32, 32, 45, 48, 46, 55, 32, 32, 32, 32, 32, 32, 32, 48, 46, 50, 32, 32, 32, 32, 32, 32, 32, 45, 48, 46, 49, 32, 32, 32, 32, 32, 32, 32, 45, 48, 46, 49],
  [57, 57, 57, 57, 57, 57, 57, 57, 57, 57, 57, 57, 57, 57, 57, 57, 57, 57, 57, 57, 57, 57, 57, 57, 57, 57, 57, 57, 57, 57, 57, 57, 57, 57, 57, 57, 57, 57, 57, 57, 57, 57, 57, 57, 57, 57, 57, 57],
  [57, 57, 57, 57, 57, 57, 57, 57, 57, 57, 57, 57, 57, 57, 57, 57, 57, 57, 57, 57, 57, 57, 57, 57, 57, 57, 57, 57, 57, 57, 57, 57, 57, 57, 57, 57, 57, 57, 57, 57, 57, 57, 57, 57, 57, 57, 57, 57]]

/-- The file: every line is followed by a newline. -/
def cofText : List Char := (cofLines.flatMap fun l => l ++ [10]).map Char.ofNat

end Verif.Wmm
