/-!
# The embedded WMM-2025 coefficient data

Copied from `crates/aether_catalogs/src/wmm/wmm_generated.rs`. Every number of that file is a multiple of 0.1; here it is
the integer number of tenths.
-/

namespace Verif.Wmm

/-- One entry of `GENERATED_WMM_RECORDS` (`wmm_generated.rs:7-98`): degree, order, and `g`, `h`, `g_dot`, `h_dot` in tenths. -/
structure RawRecord where
  degree : Nat
  order : Nat
  g : Int
  h : Int
  gDot : Int
  hDot : Int
deriving DecidableEq, Repr

/-- `wmm_generated.rs:7-98` `GENERATED_WMM_RECORDS`. -/
def rawRecords : List RawRecord := [
  ⟨1, 0, -293518, 0, 120, 0⟩,
  ⟨1, 1, -14108, 45454, 97, -215⟩,
  ⟨2, 0, -25566, 0, -116, 0⟩,
  ⟨2, 1, 29511, -31336, -52, -277⟩,
  ⟨2, 2, 16493, -8151, -80, -121⟩,
  ⟨3, 0, 13610, 0, -13, 0⟩,
  ⟨3, 1, -24041, -566, -42, 40⟩,
  ⟨3, 2, 12438, 2375, 4, -3⟩,
  ⟨3, 3, 4536, -5495, -156, -41⟩,
  ⟨4, 0, 8950, 0, -16, 0⟩,
  ⟨4, 1, 7995, 2786, -24, -11⟩,
  ⟨4, 2, 557, -1339, -60, 41⟩,
  ⟨4, 3, -2811, 2120, 56, 16⟩,
  ⟨4, 4, 121, -3756, -70, -44⟩,
  ⟨5, 0, -2332, 0, 6, 0⟩,
  ⟨5, 1, 3689, 454, 14, -5⟩,
  ⟨5, 2, 1872, 2202, 0, 22⟩,
  ⟨5, 3, -1387, -1229, 6, 4⟩,
  ⟨5, 4, -1420, 430, 22, 17⟩,
  ⟨5, 5, 209, 1061, 9, 19⟩,
  ⟨6, 0, 644, 0, -2, 0⟩,
  ⟨6, 1, 638, -184, -4, 3⟩,
  ⟨6, 2, 769, 168, 9, -16⟩,
  ⟨6, 3, -1157, 488, 12, -4⟩,
  ⟨6, 4, -409, -598, -9, 9⟩,
  ⟨6, 5, 149, 109, 3, 7⟩,
  ⟨6, 6, -607, 727, 9, 9⟩,
  ⟨7, 0, 795, 0, 0, 0⟩,
  ⟨7, 1, -770, -489, -1, 6⟩,
  ⟨7, 2, -88, -144, -1, 5⟩,
  ⟨7, 3, 593, -10, 5, -8⟩,
  ⟨7, 4, 158, 234, -1, 0⟩,
  ⟨7, 5, 25, -74, -8, -10⟩,
  ⟨7, 6, -111, -251, -8, 6⟩,
  ⟨7, 7, 142, -23, 8, -2⟩,
  ⟨8, 0, 232, 0, -1, 0⟩,
  ⟨8, 1, 108, 71, 2, -2⟩,
  ⟨8, 2, -175, -126, 0, 5⟩,
  ⟨8, 3, 20, 114, 5, -4⟩,
  ⟨8, 4, -217, -97, -1, 4⟩,
  ⟨8, 5, 169, 127, 3, -5⟩,
  ⟨8, 6, 150, 7, 2, -6⟩,
  ⟨8, 7, -168, -52, 0, 3⟩,
  ⟨8, 8, 9, 39, 2, 2⟩,
  ⟨9, 0, 46, 0, 0, 0⟩,
  ⟨9, 1, 78, -248, -1, -3⟩,
  ⟨9, 2, 30, 122, 1, 3⟩,
  ⟨9, 3, -2, 83, 3, -3⟩,
  ⟨9, 4, -25, -33, -3, 3⟩,
  ⟨9, 5, -131, -52, 0, 2⟩,
  ⟨9, 6, 24, 72, 3, -1⟩,
  ⟨9, 7, 86, -6, -1, -2⟩,
  ⟨9, 8, -87, 8, 1, 4⟩,
  ⟨9, 9, -129, 100, -1, 1⟩,
  ⟨10, 0, -13, 0, 1, 0⟩,
  ⟨10, 1, -64, 33, 0, 0⟩,
  ⟨10, 2, 2, 0, 1, 0⟩,
  ⟨10, 3, 20, 24, 1, -2⟩,
  ⟨10, 4, -10, 53, 0, 1⟩,
  ⟨10, 5, -6, -91, -3, -1⟩,
  ⟨10, 6, -9, 4, 0, 1⟩,
  ⟨10, 7, 15, -42, -1, 0⟩,
  ⟨10, 8, 9, -38, -1, -1⟩,
  ⟨10, 9, -27, 9, 0, 2⟩,
  ⟨10, 10, -39, -91, 0, 0⟩,
  ⟨11, 0, 29, 0, 0, 0⟩,
  ⟨11, 1, -15, 0, 0, 0⟩,
  ⟨11, 2, -25, 29, 0, 1⟩,
  ⟨11, 3, 24, -6, 0, 0⟩,
  ⟨11, 4, -6, 2, 0, 1⟩,
  ⟨11, 5, -1, 5, -1, 0⟩,
  ⟨11, 6, -6, -3, 0, 0⟩,
  ⟨11, 7, -1, -12, 0, 1⟩,
  ⟨11, 8, 11, -17, -1, 0⟩,
  ⟨11, 9, -10, -29, -1, 0⟩,
  ⟨11, 10, -2, -18, -1, 0⟩,
  ⟨11, 11, 26, -23, -1, 0⟩,
  ⟨12, 0, -20, 0, 0, 0⟩,
  ⟨12, 1, -2, -13, 0, 0⟩,
  ⟨12, 2, 3, 7, 0, 0⟩,
  ⟨12, 3, 12, 10, 0, -1⟩,
  ⟨12, 4, -13, -14, 0, 1⟩,
  ⟨12, 5, 6, 0, 0, 0⟩,
  ⟨12, 6, 6, 6, 1, 0⟩,
  ⟨12, 7, 5, -1, 0, 0⟩,
  ⟨12, 8, -1, 8, 0, 0⟩,
  ⟨12, 9, -4, 1, 0, 0⟩,
  ⟨12, 10, -2, -10, -1, 0⟩,
  ⟨12, 11, -13, 1, 0, 0⟩,
  ⟨12, 12, -7, 2, -1, -1⟩]

/-- `wmm_generated.rs:100` `GENERATED_WMM_G`. -/
def rawG : List Int := [
  0, -293518, -14108, -25566, 29511, 16493, 13610, -24041, 12438, 4536, 8950, 7995, 557,
  -2811, 121, -2332, 3689, 1872, -1387, -1420, 209, 644, 638, 769, -1157, -409,
  149, -607, 795, -770, -88, 593, 158, 25, -111, 142, 232, 108, -175,
  20, -217, 169, 150, -168, 9, 46, 78, 30, -2, -25, -131, 24,
  86, -87, -129, -13, -64, 2, 20, -10, -6, -9, 15, 9, -27,
  -39, 29, -15, -25, 24, -6, -1, -6, -1, 11, -10, -2, 26,
  -20, -2, 3, 12, -13, 6, 6, 5, -1, -4, -2, -13, -7]

/-- `wmm_generated.rs:194` `GENERATED_WMM_H`. -/
def rawH : List Int := [
  0, 0, 45454, 0, -31336, -8151, 0, -566, 2375, -5495, 0, 2786, -1339,
  2120, -3756, 0, 454, 2202, -1229, 430, 1061, 0, -184, 168, 488, -598,
  109, 727, 0, -489, -144, -10, 234, -74, -251, -23, 0, 71, -126,
  114, -97, 127, 7, -52, 39, 0, -248, 122, 83, -33, -52, 72,
  -6, 8, 100, 0, 33, 0, 24, 53, -91, 4, -42, -38, 9,
  -91, 0, 0, 29, -6, 2, 5, -3, -12, -17, -29, -18, -23,
  0, -13, 7, 10, -14, 0, 6, -1, 8, 1, -10, 1, 2]

/-- `wmm_generated.rs:288` `GENERATED_WMM_G_DOT`. -/
def rawGDot : List Int := [
  0, 120, 97, -116, -52, -80, -13, -42, 4, -156, -16, -24, -60,
  56, -70, 6, 14, 0, 6, 22, 9, -2, -4, 9, 12, -9,
  3, 9, 0, -1, -1, 5, -1, -8, -8, 8, -1, 2, 0,
  5, -1, 3, 2, 0, 2, 0, -1, 1, 3, -3, 0, 3,
  -1, 1, -1, 1, 0, 1, 1, 0, -3, 0, -1, -1, 0,
  0, 0, 0, 0, 0, 0, -1, 0, 0, -1, -1, -1, -1,
  0, 0, 0, 0, 0, 0, 1, 0, 0, 0, -1, 0, -1]

/-- `wmm_generated.rs:382` `GENERATED_WMM_H_DOT`. -/
def rawHDot : List Int := [
  0, 0, -215, 0, -277, -121, 0, 40, -3, -41, 0, -11, 41,
  16, -44, 0, -5, 22, 4, 17, 19, 0, 3, -16, -4, 9,
  7, 9, 0, 6, 5, -8, 0, -10, 6, -2, 0, -2, 5,
  -4, 4, -5, -6, 3, 2, 0, -3, 3, -3, 3, 2, -1,
  -2, 4, 1, 0, 0, 0, -2, 1, -1, 1, 0, -1, 2,
  0, 0, 0, 1, 0, 1, 0, 0, 1, 0, 0, 0, 0,
  0, 0, 0, -1, 1, 0, 0, 0, 0, 0, 0, 0, -1]

end Verif.Wmm
