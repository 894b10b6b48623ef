import Verif.Basic
/-!
# The Unicode data of `tm_unicode.h`

Generated from the tables in lines 961-3258 and the two functions in lines 3292-3376.
-/
namespace Tm.Uni

/-- `tmu_ucd_internal`, lines 1042-1047. -/
structure UcdEntry where
  bits0 : Nat
  bits1 : Nat
  full : Nat
  offset : Int
deriving DecidableEq, Repr

/-- `tmu_codepoint_runs`, lines 964-1040. -/
def ucdRuns : List Nat := [
  0, 115, 115, 0, 105, 775, 0, 700, 110, 0, 106, 780, 0, 953, 776, 769, 0, 965, 776, 769, 0, 1381, 1410, 0,
  104, 817, 0, 116, 776, 0, 119, 778, 0, 121, 778, 0, 97, 702, 0, 965, 787, 0, 965, 787, 768, 0, 965, 787,
  769, 0, 965, 787, 834, 0, 7936, 953, 0, 7937, 953, 0, 7938, 953, 0, 7939, 953, 0, 7940, 953, 0, 7941, 953, 0,
  7942, 953, 0, 7943, 953, 0, 7968, 953, 0, 7969, 953, 0, 7970, 953, 0, 7971, 953, 0, 7972, 953, 0, 7973, 953, 0,
  7974, 953, 0, 7975, 953, 0, 8032, 953, 0, 8033, 953, 0, 8034, 953, 0, 8035, 953, 0, 8036, 953, 0, 8037, 953, 0,
  8038, 953, 0, 8039, 953, 0, 8048, 953, 0, 945, 953, 0, 940, 953, 0, 945, 834, 0, 945, 834, 953, 0, 8052, 953,
  0, 951, 953, 0, 942, 953, 0, 951, 834, 0, 951, 834, 953, 0, 953, 776, 768, 0, 953, 834, 0, 953, 776, 834,
  0, 965, 776, 768, 0, 961, 787, 0, 965, 834, 0, 965, 776, 834, 0, 8060, 953, 0, 969, 953, 0, 974, 953, 0,
  969, 834, 0, 969, 834, 953, 0, 102, 102, 0, 102, 105, 0, 102, 108, 0, 102, 102, 105, 0, 102, 102, 108, 0,
  115, 116, 0, 1396, 1398, 0, 1396, 1381, 0, 1396, 1387, 0, 1406, 1398, 0, 1396, 1389, 0]

/-- `tmu_ucd_entries`, lines 1051-1291. -/
def ucdEntries : List UcdEntry := [
  ⟨0, 0, 0, 0⟩, ⟨0, 3, 0, 0⟩, ⟨0, 2, 0, 0⟩, ⟨64, 3, 0, 0⟩, ⟨0, 1, 0, 0⟩, ⟨70, 0, 0, 0⟩, ⟨4, 0, 0, 0⟩, ⟨5, 0, 0, 0⟩,
  ⟨3, 0, 0, 0⟩, ⟨9, 0, 0, 32⟩, ⟨17, 0, 0, 0⟩, ⟨6, 0, 0, 0⟩, ⟨5, 14, 0, 0⟩, ⟨1, 0, 0, 0⟩, ⟨17, 0, 0, 775⟩, ⟨17, 0, 1, 0⟩,
  ⟨9, 0, 0, 1⟩, ⟨9, 0, 4, 0⟩, ⟨17, 0, 7, 0⟩, ⟨9, 0, 0, -121⟩, ⟨17, 0, 0, -268⟩, ⟨9, 0, 0, 210⟩, ⟨9, 0, 0, 206⟩, ⟨9, 0, 0, 205⟩,
  ⟨9, 0, 0, 79⟩, ⟨9, 0, 0, 202⟩, ⟨9, 0, 0, 203⟩, ⟨9, 0, 0, 207⟩, ⟨9, 0, 0, 211⟩, ⟨9, 0, 0, 209⟩, ⟨9, 0, 0, 213⟩, ⟨9, 0, 0, 214⟩,
  ⟨9, 0, 0, 218⟩, ⟨9, 0, 0, 217⟩, ⟨9, 0, 0, 219⟩, ⟨9, 0, 0, 2⟩, ⟨25, 0, 0, 1⟩, ⟨17, 0, 10, 0⟩, ⟨9, 0, 0, -97⟩, ⟨9, 0, 0, -56⟩,
  ⟨9, 0, 0, -130⟩, ⟨9, 0, 0, 10795⟩, ⟨9, 0, 0, -163⟩, ⟨9, 0, 0, 10792⟩, ⟨9, 0, 0, -195⟩, ⟨9, 0, 0, 69⟩, ⟨9, 0, 0, 71⟩, ⟨2, 5, 0, 0⟩,
  ⟨2, 5, 0, 116⟩, ⟨9, 0, 0, 116⟩, ⟨9, 0, 0, 38⟩, ⟨9, 0, 0, 37⟩, ⟨9, 0, 0, 64⟩, ⟨9, 0, 0, 63⟩, ⟨17, 0, 13, 0⟩, ⟨17, 0, 17, 0⟩,
  ⟨17, 0, 0, 1⟩, ⟨9, 0, 0, 8⟩, ⟨17, 0, 0, -30⟩, ⟨17, 0, 0, -25⟩, ⟨9, 0, 0, 0⟩, ⟨17, 0, 0, -15⟩, ⟨17, 0, 0, -22⟩, ⟨17, 0, 0, -54⟩,
  ⟨17, 0, 0, -48⟩, ⟨9, 0, 0, -60⟩, ⟨17, 0, 0, -64⟩, ⟨9, 0, 0, -7⟩, ⟨9, 0, 0, 80⟩, ⟨9, 0, 0, 15⟩, ⟨9, 0, 0, 48⟩, ⟨17, 0, 21, 0⟩,
  ⟨0, 4, 0, 0⟩, ⟨2, 7, 0, 0⟩, ⟨1, 4, 0, 0⟩, ⟨1, 7, 0, 0⟩, ⟨2, 0, 0, 0⟩, ⟨9, 0, 0, 7264⟩, ⟨1, 8, 0, 0⟩, ⟨1, 9, 0, 0⟩,
  ⟨1, 10, 0, 0⟩, ⟨17, 0, 0, -8⟩, ⟨17, 0, 0, -6222⟩, ⟨17, 0, 0, -6221⟩, ⟨17, 0, 0, -6212⟩, ⟨17, 0, 0, -6210⟩, ⟨17, 0, 0, -6211⟩, ⟨17, 0, 0, -6204⟩,
  ⟨17, 0, 0, -6180⟩, ⟨17, 0, 0, 35267⟩, ⟨9, 0, 0, -3008⟩, ⟨17, 0, 24, 0⟩, ⟨17, 0, 27, 0⟩, ⟨17, 0, 30, 0⟩, ⟨17, 0, 33, 0⟩, ⟨17, 0, 36, 0⟩,
  ⟨17, 0, 0, -58⟩, ⟨9, 0, 1, -7615⟩, ⟨9, 0, 0, -8⟩, ⟨17, 0, 39, 0⟩, ⟨17, 0, 42, 0⟩, ⟨17, 0, 46, 0⟩, ⟨17, 0, 50, 0⟩, ⟨17, 0, 54, 0⟩,
  ⟨17, 0, 57, 0⟩, ⟨17, 0, 60, 0⟩, ⟨17, 0, 63, 0⟩, ⟨17, 0, 66, 0⟩, ⟨17, 0, 69, 0⟩, ⟨17, 0, 72, 0⟩, ⟨17, 0, 75, 0⟩, ⟨25, 0, 54, -8⟩,
  ⟨25, 0, 57, -8⟩, ⟨25, 0, 60, -8⟩, ⟨25, 0, 63, -8⟩, ⟨25, 0, 66, -8⟩, ⟨25, 0, 69, -8⟩, ⟨25, 0, 72, -8⟩, ⟨25, 0, 75, -8⟩, ⟨17, 0, 78, 0⟩,
  ⟨17, 0, 81, 0⟩, ⟨17, 0, 84, 0⟩, ⟨17, 0, 87, 0⟩, ⟨17, 0, 90, 0⟩, ⟨17, 0, 93, 0⟩, ⟨17, 0, 96, 0⟩, ⟨17, 0, 99, 0⟩, ⟨25, 0, 78, -8⟩,
  ⟨25, 0, 81, -8⟩, ⟨25, 0, 84, -8⟩, ⟨25, 0, 87, -8⟩, ⟨25, 0, 90, -8⟩, ⟨25, 0, 93, -8⟩, ⟨25, 0, 96, -8⟩, ⟨25, 0, 99, -8⟩, ⟨17, 0, 102, 0⟩,
  ⟨17, 0, 105, 0⟩, ⟨17, 0, 108, 0⟩, ⟨17, 0, 111, 0⟩, ⟨17, 0, 114, 0⟩, ⟨17, 0, 117, 0⟩, ⟨17, 0, 120, 0⟩, ⟨17, 0, 123, 0⟩, ⟨25, 0, 102, -8⟩,
  ⟨25, 0, 105, -8⟩, ⟨25, 0, 108, -8⟩, ⟨25, 0, 111, -8⟩, ⟨25, 0, 114, -8⟩, ⟨25, 0, 117, -8⟩, ⟨25, 0, 120, -8⟩, ⟨25, 0, 123, -8⟩, ⟨17, 0, 126, 0⟩,
  ⟨17, 0, 129, 0⟩, ⟨17, 0, 132, 0⟩, ⟨17, 0, 135, 0⟩, ⟨17, 0, 138, 0⟩, ⟨9, 0, 0, -74⟩, ⟨25, 0, 129, -9⟩, ⟨17, 0, 0, -7173⟩, ⟨17, 0, 142, 0⟩,
  ⟨17, 0, 145, 0⟩, ⟨17, 0, 148, 0⟩, ⟨17, 0, 151, 0⟩, ⟨17, 0, 154, 0⟩, ⟨9, 0, 0, -86⟩, ⟨25, 0, 145, -9⟩, ⟨17, 0, 158, 0⟩, ⟨17, 0, 162, 0⟩,
  ⟨17, 0, 165, 0⟩, ⟨9, 0, 0, -100⟩, ⟨17, 0, 169, 0⟩, ⟨17, 0, 173, 0⟩, ⟨17, 0, 176, 0⟩, ⟨17, 0, 179, 0⟩, ⟨9, 0, 0, -112⟩, ⟨17, 0, 183, 0⟩,
  ⟨17, 0, 186, 0⟩, ⟨17, 0, 189, 0⟩, ⟨17, 0, 192, 0⟩, ⟨17, 0, 195, 0⟩, ⟨9, 0, 0, -128⟩, ⟨9, 0, 0, -126⟩, ⟨25, 0, 186, -9⟩, ⟨0, 5, 0, 0⟩,
  ⟨0, 13, 0, 0⟩, ⟨70, 3, 0, 0⟩, ⟨6, 3, 0, 0⟩, ⟨4, 14, 0, 0⟩, ⟨9, 0, 0, -7517⟩, ⟨9, 0, 0, -8383⟩, ⟨9, 0, 0, -8262⟩, ⟨9, 0, 0, 28⟩,
  ⟨17, 14, 0, 0⟩, ⟨3, 0, 0, 16⟩, ⟨5, 0, 0, 26⟩, ⟨5, 14, 0, 26⟩, ⟨9, 0, 0, -10743⟩, ⟨9, 0, 0, -3814⟩, ⟨9, 0, 0, -10727⟩, ⟨9, 0, 0, -10780⟩,
  ⟨9, 0, 0, -10749⟩, ⟨9, 0, 0, -10783⟩, ⟨9, 0, 0, -10782⟩, ⟨9, 0, 0, -10815⟩, ⟨9, 0, 0, -35332⟩, ⟨9, 0, 0, -42280⟩, ⟨9, 0, 0, -42308⟩, ⟨9, 0, 0, -42319⟩,
  ⟨9, 0, 0, -42315⟩, ⟨9, 0, 0, -42305⟩, ⟨9, 0, 0, -42258⟩, ⟨9, 0, 0, -42282⟩, ⟨9, 0, 0, -42261⟩, ⟨9, 0, 0, 928⟩, ⟨9, 0, 0, -48⟩, ⟨9, 0, 0, -42307⟩,
  ⟨9, 0, 0, -35384⟩, ⟨17, 0, 0, -38864⟩, ⟨1, 11, 0, 0⟩, ⟨0, 12, 0, 0⟩, ⟨0, 11, 0, 0⟩, ⟨1, 12, 0, 0⟩, ⟨17, 0, 199, 0⟩, ⟨17, 0, 202, 0⟩,
  ⟨17, 0, 205, 0⟩, ⟨17, 0, 208, 0⟩, ⟨17, 0, 212, 0⟩, ⟨17, 0, 216, 0⟩, ⟨17, 0, 219, 0⟩, ⟨17, 0, 222, 0⟩, ⟨17, 0, 225, 0⟩, ⟨17, 0, 228, 0⟩,
  ⟨17, 0, 231, 0⟩, ⟨1, 5, 0, 0⟩, ⟨9, 0, 0, 40⟩, ⟨9, 0, 0, 34⟩, ⟨0, 14, 0, 0⟩, ⟨5, 6, 0, 0⟩, ⟨5, 5, 0, 0⟩]

/-- `tmu_ucd_stage_one`, lines 1295-1361. -/
def ucdStageOne : List Nat := [
  0, 1, 2, 3, 4, 5, 6, 7, 8, 9, 10, 11, 12, 13, 14, 15, 16, 17, 18, 19, 20, 21, 22, 23, 24, 25, 26, 27, 28, 29, 30, 31,
  32, 33, 211, 212, 34, 35, 36, 37, 213, 214, 214, 214, 38, 39, 40, 41, 42, 43, 44, 45, 46, 47, 48, 49, 50, 51, 52, 53, 54, 55, 56, 57,
  58, 59, 60, 61, 215, 215, 62, 63, 64, 65, 215, 66, 216, 217, 67, 68, 215, 215, 218, 69, 215, 215, 70, 219, 71, 72, 73, 74, 75, 76, 215, 77,
  78, 79, 80, 81, 82, 83, 215, 215, 220, 210, 210, 210, 210, 210, 210, 210, 210, 210, 210, 210, 210, 210, 210, 210, 210, 210, 210, 210, 210, 210, 210, 210,
  210, 210, 210, 210, 210, 210, 210, 210, 210, 210, 210, 210, 210, 210, 210, 210, 210, 210, 210, 210, 210, 210, 210, 210, 210, 210, 210, 84, 220, 210, 210, 210,
  210, 210, 210, 210, 210, 210, 210, 210, 210, 210, 210, 210, 210, 210, 210, 210, 210, 210, 210, 210, 210, 210, 210, 210, 210, 210, 210, 210, 210, 210, 210, 210,
  210, 210, 210, 210, 210, 210, 210, 210, 210, 210, 210, 210, 210, 210, 210, 210, 210, 210, 210, 210, 210, 210, 210, 210, 210, 210, 210, 210, 210, 210, 210, 210,
  210, 210, 210, 210, 210, 210, 210, 210, 210, 210, 210, 210, 210, 210, 210, 210, 210, 210, 210, 210, 210, 210, 210, 210, 210, 210, 210, 210, 210, 210, 210, 210,
  210, 210, 210, 210, 210, 210, 210, 210, 210, 210, 210, 210, 210, 210, 210, 210, 210, 210, 210, 210, 210, 210, 210, 210, 210, 210, 210, 210, 210, 210, 210, 210,
  210, 210, 210, 210, 210, 210, 210, 210, 210, 210, 210, 210, 210, 210, 210, 210, 210, 210, 210, 210, 210, 210, 210, 210, 210, 210, 210, 210, 210, 210, 210, 221,
  214, 214, 214, 214, 214, 214, 214, 214, 214, 85, 214, 214, 86, 87, 88, 89, 90, 91, 92, 93, 94, 95, 96, 97, 98, 99, 100, 101, 102, 103, 104, 105,
  99, 100, 101, 102, 103, 104, 105, 99, 100, 101, 102, 103, 104, 105, 99, 100, 101, 102, 103, 104, 105, 99, 100, 101, 102, 103, 104, 105, 99, 100, 101, 102,
  103, 104, 105, 99, 100, 101, 102, 103, 104, 105, 99, 100, 101, 102, 103, 104, 105, 99, 100, 101, 102, 103, 104, 105, 99, 100, 101, 102, 103, 104, 105, 99,
  100, 101, 102, 103, 104, 105, 99, 100, 101, 102, 103, 104, 105, 99, 100, 106, 210, 210, 210, 210, 210, 210, 210, 210, 210, 210, 210, 210, 210, 210, 210, 210,
  210, 210, 210, 210, 210, 210, 210, 210, 210, 210, 210, 210, 210, 210, 210, 210, 210, 210, 210, 210, 210, 210, 210, 210, 210, 210, 210, 210, 210, 210, 210, 210,
  210, 210, 210, 210, 210, 210, 210, 210, 210, 210, 210, 210, 210, 210, 210, 210, 210, 210, 214, 214, 222, 223, 107, 108, 214, 214, 109, 110, 111, 112, 113, 114,
  115, 224, 116, 117, 210, 118, 119, 120, 121, 122, 123, 210, 214, 214, 124, 210, 125, 126, 127, 128, 129, 130, 131, 132, 225, 133, 134, 210, 226, 135, 136, 137,
  138, 139, 140, 141, 142, 143, 144, 210, 145, 146, 210, 147, 148, 149, 150, 210, 151, 152, 153, 154, 155, 156, 210, 210, 157, 158, 159, 160, 210, 161, 210, 162,
  214, 214, 214, 214, 214, 214, 214, 227, 163, 214, 228, 210, 210, 210, 210, 210, 210, 210, 210, 210, 210, 210, 210, 210, 210, 210, 210, 210, 210, 210, 210, 210,
  214, 214, 214, 214, 214, 214, 214, 214, 164, 210, 210, 210, 210, 210, 210, 210, 210, 210, 210, 210, 210, 210, 210, 210, 210, 210, 210, 210, 210, 210, 210, 210,
  210, 210, 210, 210, 210, 210, 210, 210, 214, 214, 214, 214, 229, 210, 210, 210, 210, 210, 210, 210, 210, 210, 210, 210, 210, 210, 210, 210, 210, 210, 210, 210,
  210, 210, 210, 210, 210, 210, 210, 210, 210, 210, 210, 210, 210, 210, 210, 210, 210, 210, 210, 210, 210, 210, 210, 210, 210, 210, 210, 210, 210, 210, 210, 210,
  210, 210, 210, 210, 210, 210, 210, 210, 210, 210, 210, 210, 210, 210, 210, 210, 214, 214, 214, 214, 165, 166, 167, 230, 210, 210, 210, 210, 168, 169, 170, 171,
  220, 210, 210, 210, 210, 210, 210, 210, 210, 210, 210, 210, 210, 210, 210, 210, 210, 210, 210, 210, 210, 210, 210, 210, 210, 210, 210, 210, 210, 210, 210, 210,
  210, 210, 210, 210, 210, 210, 210, 210, 210, 210, 210, 210, 210, 210, 210, 231, 214, 214, 214, 214, 214, 214, 214, 214, 214, 232, 233, 210, 210, 210, 210, 210,
  210, 210, 210, 210, 210, 210, 210, 210, 210, 210, 210, 210, 210, 210, 210, 210, 210, 210, 210, 210, 210, 210, 210, 210, 210, 210, 210, 210, 210, 210, 210, 210,
  210, 210, 210, 210, 210, 210, 210, 210, 210, 210, 210, 210, 210, 210, 210, 210, 210, 210, 210, 210, 210, 210, 210, 210, 210, 210, 210, 210, 210, 210, 210, 210,
  214, 214, 172, 214, 214, 234, 210, 210, 210, 210, 210, 210, 210, 210, 210, 210, 210, 210, 210, 210, 210, 210, 210, 210, 173, 174, 210, 210, 210, 210, 210, 210,
  210, 210, 210, 210, 210, 210, 210, 210, 210, 210, 210, 210, 210, 210, 210, 210, 210, 210, 210, 210, 210, 210, 210, 210, 210, 210, 210, 210, 210, 210, 210, 210,
  215, 235, 175, 176, 177, 236, 178, 210, 179, 180, 181, 182, 183, 184, 185, 186, 215, 215, 215, 215, 187, 188, 210, 210, 210, 210, 210, 210, 210, 210, 210, 210,
  189, 210, 190, 210, 210, 191, 210, 210, 210, 210, 210, 210, 210, 210, 210, 210, 214, 192, 193, 210, 210, 210, 210, 210, 237, 194, 195, 210, 196, 197, 210, 210,
  238, 198, 199, 200, 201, 239, 240, 241, 240, 240, 242, 240, 243, 202, 244, 203, 204, 205, 206, 245, 207, 208, 215, 209, 239, 239, 239, 239, 239, 239, 239, 246,
  220]

/-- `tmu_ucd_stage_two`, lines 1367-3258. Each of the 210 blocks of 128 bytes is written as one number, with its first byte as the lowest one. -/
def ucdStageTwo : List Nat := [
  0x1070607060a0a0a0a0a0a0a0a0a0a0a0a0a0a0a0a0a0a0a0a0a0a0a0a0a0a07060706060609090909090909090909090909090909090909090909090909090606070707060608080808080808080808060606060706060606060607060606050101010101010101010101010101010101010403010201010101010101010101,
  0xa0a0a0a0a0a0a0a070a0a0a0a0a0a0a0a0a0a0a0a0a0a0a0a0a0a0a0a0a0a0a0f0909090909090907090909090909090909090909090909090909090909090906080808060d080706060e0708080707070c0107060d0c07060707070707060b0101010101010101010101010101010101010101010101010101010101010101,
  0x140a100a100a10130a100a100a100a100a100a100a100a100a100a100a100a100a100a100a100a100a100a100a100a100a100a100a10120a100a100a100a100a100a100a100a100a0a100a100a100a110a100a100a100a100a100a100a100a100a100a100a100a100a100a100a100a100a100a100a100a100a100a100a100a10,
  0xa100a100a100a1027260a100a2423250a100a100a100a100a100a100a100a100a100a0a100a100a100a100a100a100a100a100a24230a24230a24230d0d0d0d0a0a0a100d0a0a10220a100a1021210a10200a100a0a200a10200a100a100a101f0a1e1c0a0a0a101d1c0a1b170a101a19180a0a1017170a10160a100a10150a,
  0xa0a0a0a0a0a0a0a0a0a0a0a0a0a0a0a0a0a0a0a0a0a0a0a0a0a0a0a0a0a0a0a0a0a0a0a0a0a0a0a0a0a0a0a0a0a0a0a0a100a100a100a100a102e2d2c0a100a0a2b2a0a10290a0a0a0a0a0a0a100a100a100a100a100a100a100a100a100a280a100a100a100a100a100a100a100a100a100a100a100a100a100a100a100a10,
  0x7070707070707070707070707070707070d070d070707070707070d0d0d0d0d07070707070707070707070707070d0d0d0d0d0d0d0d0d0d0d0d070707070d0d0d0d0d0d0d0d0d0d0d0d0d0d0d0d0d0d0a0a0a0a0a0a0a0a0a0a0a0a0a0a0a0a0a0a0a0a0a0a0a0a0a0a0a0d0a0a0a0a0a0a0a0a0a0a0a0a0a0a0a0a0a0a0a0a,
  0x31060a0a0a0d00000a10070d0a100a102f2f2f2f2f2f2f2f2f2f2f2f2f2f2f2f2f2f2f2f2f2f2f2f2f2f2f2f2f2f2f2f2f2f2f2f2f2f2f2f2f2f302f2f2f2f2f2f2f2f2f2f2f2f2f2f2f2f2f2f2f2f2f2f2f2f2f2f2f2f2f2f2f2f2f2f2f2f2f2f2f2f2f2f2f2f2f2f2f2f2f2f2f2f2f2f2f2f2f2f2f2f2f2f2f2f2f2f2f2f2f,
  0x2828280a0a10430a100742410a0a403f0a100a100a100a100a100a100a100a100a100a100a100a100a3e3d3c3c3c3b3a390a0a0a0a0a0a0a0a0a0a0a0a380a0a0a0a0a0a0a0a0a0a0a0a0a0a0a0a0a370a0a0a0a0909090909090909090009090909090909090909090909090909093635350034003333330632070700000000,
  0xa100a100a100a100a100a100a100a100a100a100a100a100a100a100a100a100a0a0a0a0a0a0a0a0a0a0a0a0a0a0a0a0a0a0a0a0a0a0a0a0a0a0a0a0a0a0a0a0a0a0a0a0a0a0a0a0a0a0a0a0a0a0a0a090909090909090909090909090909090909090909090909090909090909090944444444444444444444444444444444,
  0xa100a100a100a100a100a100a100a100a100a100a100a100a100a100a100a100a100a100a100a100a100a100a100a100a0a100a100a100a100a100a100a10450a100a100a100a100a100a100a100a100a100a100a100a100a100a100a100a100a100a100a100a100a100a100a100a100a100a100a102f2f2f2f2f2f2f070a10,
  0xa0a0a0a0a0a0a0a0a0a0a0a0a0a0a0a0a0a0a0a0a0a0a0a0a0a0a0a0a0a0a0a0606060606060d00004646464646464646464646464646464646464646464646464646464646464646464646464646000a100a100a100a100a100a100a100a100a100a100a100a100a100a100a100a100a100a100a100a100a100a100a100a10,
  0x6060d0d0d0d000000000d0d0d0d0d0d0d0d0d0d0d0d0d0d0d0d0d0d0d0d0d0d0d0d0d0d0d00000000000000002f062f2f062f2f062f062f2f2f2f2f2f2f2f2f2f2f2f2f2f2f2f2f2f2f2f2f2f2f2f2f2f2f2f2f2f2f2f2f2f2f2f2f2f2f2f2f2f2f2f2f00070707000006060a470a0a0a0a0a0a0a,
  0xd0d0d0d0d0d0d0d0d0d0d0d0d0d0d2f0d0d06060606080808080808080808082f2f2f2f2f2f2f2f2f2f2f2f2f2f2f2f2f2f2f2f2f0d0d0d0d0d0d0d0d0d0d0d0d0d0d0d0d0d0d0d0d0d0d0d0d0d0d0d0d0d0d0d0d0d0d0d0d0d0d0d0d0d0d0d06060001062f2f2f2f2f2f2f2f2f2f2f07070606070606070707484848484848,
  0xd07070d0d0d080808080808080808080d0d2f2f2f2f072f2f0d0d2f2f2f2f2f2f07482f2f2f2f2f2f2f0d060d0d0d0d0d0d0d0d0d0d0d0d0d0d0d0d0d0d0d0d0d0d0d0d0d0d0d0d0d0d0d0d0d0d0d0d0d0d0d0d0d0d0d0d0d0d0d0d0d0d0d0d0d0d0d0d0d0d0d0d0d0d0d0d0d0d0d0d0d0d0d0d0d0d0d0d0d0d0d0d0d0d0d0d,
  0xd0d0d0d0d0d0d0d0d0d0d0d0d0d0d0d0d0d0d0d0d0d0d0d0d0d0d0d0d0d0d0d0d0d0d0d0d0d0d0d0d0d0d0d0d0d0d0d0d0d0d00002f2f2f2f2f2f2f2f2f2f2f2f2f2f2f2f2f2f2f2f2f2f2f2f2f2f2f0d0d0d0d0d0d0d0d0d0d0d0d0d0d0d0d0d0d0d0d0d0d0d0d0d0d0d0d0d0d2f0d48000606060606060606060606060606,
  0x7072f00000d060606070d0d2f2f2f2f2f2f2f2f2f0d0d0d0d0d0d0d0d0d0d0d0d0d0d0d0d0d0d0d0d0d0d0d0d0d0d0d0d0d0d0d0d0d0808080808080808080800000000000000000000000000000d2f2f2f2f2f2f2f2f2f2f2f0d0d0d0d0d0d0d0d0d0d0d0d0d0d0d0d0d0d0d0d0d0d0d0d0d0d0d0d0d0d0d0d0d0d0d0d0d0d,
  0xd0d0d0d0d0d0d0d0d0d0d000600002f2f2f0d0d0d0d0d0d0d0d0d0d0d0d0d0d0d0d0d0d0d0d0d0d0d0d0d0006060606060606060606060606060600002f2f2f2f2f0d2f2f2f0d2f2f2f2f2f2f2f2f2f0d2f2f2f2f0d0d0d0d0d0d0d0d0d0d0d0d0d0d0d0d0d0d0d0d0d0d,
  0x2f2f2f2f2f2f2f2f2f2f2f2f2f2f2f2f2f2f2f2f2f2f2f2f2f2f2f2f2f482f2f2f2f2f2f2f2f2f2f2f2f2f2f2f00000000000000000000000d0d0d0d0d0d0d0d0d0d0d0d0d0d0d0d0d0d000d0d0d0d0d0d0d0d0d0d0d0d0d0d0d0d0d0d0d0d0d0000000000000000000000000000000000000000000000000000000000000000,
  0xd0d0d0d0d0d0d0d0d0d0d0d0d0d0d060808080808080808080806062f2f0d0d0d0d0d0d0d0d0d0d2f2f2f2f2f2f2f0d49492f494949492f2f2f2f2f2f2f2f4949490d2f492f0d0d0d0d0d0d0d0d0d0d0d0d0d0d0d0d0d0d0d0d0d0d0d0d0d0d0d0d0d0d0d0d0d0d0d0d0d0d0d0d0d0d0d0d0d0d0d0d0d0d0d0d0d0d492f2f2f,
  0x2f060d070708080808080807070d0d0808080808080808080800002f2f0d0d0d000d0d000000002f00000000000000000d2f49490000494900002f2f2f2f49492f0d2f00000d0d0d0d0000000d000d0d0d0d0d0d0d000d0d0d0d0d0d0d0d0d0d0d0d0d0d0d0d0d0d0d0d0d0d00000d0d00000d0d0d0d0d0d0d0d0049492f0d,
  0x62f0d0d0d2f2f08080808080808080808000000000000000d000d0d0d0d000000000000002f0000002f2f2f00002f2f000000002f2f494949002f00000d0d000d0d000d0d000d0d0d0d0d0d0d000d0d0d0d0d0d0d0d0d0d0d0d0d0d0d0d0d0d0d0d0d0d00000d0d000000000d0d0d0d0d0d00492f2f00,
  0x2f2f2f2f2f2f0d0000000000000007060808080808080808080800002f2f0d0d0000000000000000000000000000000d00002f494900492f2f002f2f2f2f2f4949490d2f00000d0d0d0d0d000d0d000d0d0d0d0d0d0d000d0d0d0d0d0d0d0d0d0d0d0d0d0d0d0d0d0d0d0d0d0d000d0d0d000d0d0d0d0d0d0d0d0d00492f2f00,
  0x808080808080d070808080808080808080800002f2f0d0d0d000d0d000000002f2f2f000000000000002f49490000494900002f2f2f2f492f2f0d2f00000d0d0d0d0d000d0d000d0d0d0d0d0d0d000d0d0d0d0d0d0d0d0d0d0d0d0d0d0d0d0d0d0d0d0d0d00000d0d00000d0d0d0d0d0d0d0d0049492f00,
  0x7070707070707070808080808080808080808080800000000000000000000000000002f0000000000000d00002f4949490049494900000049492f492f000000000d0d0d0d0d0d0d0d0d0d0d0d0000000d0d0d0000000d0d0000000d0d000d000d0d0000000d0d0d0d000d0d0d0000000d0d0d0d0d0d000d2f0000,
  0x70808080808080806000000000000000808080808080808080800002f2f0d0d00000000000d0d0d002f2f000000000000002f2f2f2f002f2f2f00494949492f2f2f0d0000000d0d0d0d0d0d0d0d0d0d0d0d0d0d0d0d000d0d0d0d0d0d0d0d0d0d0d0d0d0d0d0d0d0d0d0d0d0d0d000d0d0d000d0d0d0d0d0d0d0d2f4949492f,
  0xd0d000808080808080808080800002f2f0d0d000d000000000000002f2f000000000000002f2f49490049492f0049492f49492f490d2f00000d0d0d0d0d000d0d0d0d0d0d0d0d0d0d000d0d0d0d0d0d0d0d0d0d0d0d0d0d0d0d0d0d0d0d0d0d0d000d0d0d000d0d0d0d0d0d0d0d0649492f0d,
  0xd0d0d0d0d0d070808080808080808080808080808080808080800002f2f0d0d0d080808080808082f0d0d0d00000000074a2f49494900494949002f2f2f2f49492f0d2f2f0d0d0d0d0d0d0d0d0d0d0d0d0d0d0d0d0d0d0d0d0d0d0d0d0d0d0d0d0d0d0d0d0d0d0d0d0d0d0d0d0d000d0d0d000d0d0d0d0d0d0d0d0d49492f2f,
  0x649490000080808080808080808080000000000002f49494949494949002f002f2f2f49492f000000002f0000000d0d0d0d0d0d0d00000d000d0d0d0d0d0d0d0d0d000d0d0d0d0d0d0d0d0d0d0d0d0d0d0d0d0d0d0d0d0d0d0d0d0000000d0d0d0d0d0d0d0d0d0d0d0d0d0d0d0d0d0d0049492f00,
  0x60608080808080808080808062f2f2f2f2f2f2f2f0d0d0d0d0d0d0d07000000002f2f2f2f2f2f2f4b0d2f0d0d0d0d0d0d0d0d0d0d0d0d0d0d0d0d0d0d0d0d0d0d0d0d0d0d0d0d0d0d0d0d0d0d0d0d0d0d0d0d0d0d0d0d0d0d0d0d00,
  0xd0d0d0d00000808080808080808080800002f2f2f2f2f2f000d000d0d0d0d0d00000d2f2f2f2f2f2f2f2f2f4b0d2f0d0d0d0d0d0d0d0d0d0d000d000d0d0d0d0d0d0d0d0d0d0d0d0d0d0d0d0d0d0d0d0d0d0d0d000d0d0d0d0d000d000d0d00,
  0x492f2f2f2f2f2f2f2f2f2f2f2f2f2f000000000d0d0d0d0d0d0d0d0d0d0d0d0d0d0d0d0d0d0d0d0d0d0d0d0d0d0d0d0d0d0d0d0d0d0d0d000d0d0d0d0d0d0d0d4949060606062f072f072f0708080808080808080808080808080808080808080707070707072f2f07070706070606060606060606060606060606060707070d,
  0x6060707070706060606060707000707070707072f0707070707070707002f2f2f2f2f2f2f2f2f2f2f2f2f2f2f2f2f2f2f2f2f2f2f2f2f2f2f2f2f2f2f2f2f2f2f2f002f2f2f2f2f2f2f2f2f2f2f0d0d0d0d0d2f2f062f2f2f2f2f,
  0xd0d0d0d0d0d0d0d0d0d0d2f2f2f2f0d0d0d4c4c4c4c4c4c4c0d0d4c4c4c0d2f2f2f0d0d0d0d2f2f49490d0d0d0d0d0d060606060606080808080808080808080d2f2f49492f2f4c2f2f2f2f2f2f492f2f2f2f4c4c0d0d0d0d0d0d0d0d0d0d0d0d0d0d0d0d0d0d0d0d0d0d0d0d0d0d0d0d0d0d0d0d0d0d0d0d0d0d0d0d0d0d0d,
  0xa0a0a0d060a0a0a0a0a0a0a0a0a0a0a0a0a0a0a0a0a0a0a0a0a0a0a0a0a0a0a0a0a0a0a0a0a0a0a0a0a0a0a0a0a0a0a00004d00000000004d004d4d4d4d4d4d4d4d4d4d4d4d4d4d4d4d4d4d4d4d4d4d4d4d4d4d4d4d4d4d4d4d4d4d4d4d4d4d07072f4c4c4c080808080808080808084c0d2f4c4c4c4c4c4c2f2f494c2f0d0d,
  0xd0d0d0d0d0d0d0d0d0d0d0d0d0d0d0d0d0d0d0d0d0d0d0d0d0d0d0d0d0d0d0d00000d0d0d0d000d000d0d0d0d0d0d0d00000d0d0d0d000d0d0d0d0d0d0d0d0d0d0d0d0d0d0d0d0d0d0d0d0d0d0d0d0d0d0d0d0d0d0d0d0d0d0d0d0d0d0d0d0d0d0d0d0d0d0d0d0d0d0d0d0d0d0d0d0d0d0d0d0d0d0d0d0d0d0d0d0d0d0d0d0d,
  0xd0d0d0d0d0d0d0d0d0d0d0d0d0d0d0d0d0d0d0d0d0d0d0d0d0d0d0d0d0d0d0d0d0d0d0d0d0d0d0d000d0d0d0d0d0d0d0d0d0d0d0d0d0d0d00000d0d0d0d000d000d0d0d0d0d0d0d00000d0d0d0d000d0d0d0d0d0d0d0d0d0d0d0d0d0d0d0d0d0d0d0d0d0d0d0d0d0d0d0d0d0d0d0d0d00000d0d0d0d000d0d0d0d0d0d0d0d0d,
  0x8080808080808080808080808080808080808080606060606060606062f2f2f00000d0d0d0d0d0d0d0d0d0d0d0d0d0d0d0d0d0d0d0d0d0d0d0d0d0d0d0d0d0d0d0d0d0d0d0d0d0d0d0d0d0d0d0d0d0d0d0d0d0d0d0d0d0d0d0d0d0d0d0d0d0d0d0d0d0d0d00000d0d0d0d000d0d0d0d0d0d0d0d0d0d0d0d0d0d0d0d0d,
  0x51515151515100003c3c3c3c3c3c3c3c3c3c3c3c3c3c3c3c3c3c3c3c3c3c3c3c3c3c3c3c3c3c3c3c3c3c3c3c3c3c3c3c3c3c3c3c3c3c3c3c3c3c3c3c3c3c3c3c3c3c3c3c3c3c3c3c3c3c3c3c3c3c3c3c3c3c3c3c3c3c3c3c3c3c3c3c3c3c000000000000070707070707070707070d0d0d0d0d0d0d0d0d0d0d0d0d0d0d0d,
  0xd0d0d0d0d0d0d0d0d0d0d0d0d0d0d0d0d06070d0d0d0d0d0d0d0d0d0d0d0d0d0d0d0d0d0d0d0d0d0d0d0d0d0d0d0d0d0d0d0d0d0d0d0d0d0d0d0d0d0d0d0d0d0d0d0d0d0d0d0d0d0d0d0d0d0d0d0d0d0d0d0d0d0d0d0d0d0d0d0d0d0d0d0d0d0d0d0d0d0d0d0d0d0d0d0d0d0d0d0d0d0d0d0d0d0d0d0d0d0d0d0d0d0d0d0d0d,
  0xd0d0d0d0d0d0d0d0808080606060d0d0d0d0d0d0d0d0d0d0d0d0d0d0d0d0d0d0d0d0d0d0d0d0d0d0d0d0d0d0d0d0d0d0d0d0d0d0d0d0d0d0d0d0d0d0d0d0d0d0d0d0d0d0d0d0d0d0d0d0d0d0d0d0d0d0d0d0d0d0d0d0d0d0d00000006060d0d0d0d0d0d0d0d0d0d0d0d0d0d0d0d0d0d0d0d0d0d0d0d0d0d05,
  0x2f2f000d0d0d000d0d0d0d0d0d0d0d0d0d0d0d0d0000000000000000000000002f2f0d0d0d0d0d0d0d0d0d0d0d0d0d0d0d0d0d0d00000000000000000006062f2f2f0d0d0d0d0d0d0d0d0d0d0d0d0d0d0d0d0d0d00000000000000000000002f2f2f0d0d0d0d000d0d0d0d0d0d0d0d0d0d0d0d0d,
  0x80808080808080808080000000000000808080808080808080800002f0d070606060d0606062f2f2f2f2f2f2f2f2f2f2f49492f49494949494949492f2f2f2f2f2f2f492f2f0d0d0d0d0d0d0d0d0d0d0d0d0d0d0d0d0d0d0d0d0d0d0d0d0d0d0d0d0d0d0d0d0d0d0d0d0d0d0d0d0d0d0d0d0d0d0d0d0d0d0d0d,
  0xd0d0d0d0d0d0d0d0d0d0d0d0d0d0d0d0d0d0d0d0d0d0d0d0d0d0d0d0d0d0d0d0d0d0d0d0d0d0d0d0d0d0d0d0d0d0d0d0d0d0d0d0d0d0d0d0d0d0d0d0d0d0d0d0d0d0d0d0d0d0d0d0d0d0d0d0d0d0d0d0d0d0d0d0d0d0d0d0d0000000000000808080808080808080800012f2f2f0606060606060606060606,
  0xd0d0d0d0d0d0d0d0d0d0d0d0d0d0d0d0d0d0d0d0d0d0d0d0d0d0d0d0d0d0d0d0d0d0d0d0d0d0d0d0d0d0d0d0d0d0d0d0d0d0d0d0d0d0d0d0d0d0d0d0d0d0d0d0d0d0d0d0d0d00000000000d2f0d0d0d0d0d0d0d0d0d0d0d0d0d0d0d0d0d0d0d0d0d0d0d0d0d0d0d0d0d0d0d0d0d0d2f2f0d0d0d0d0d,
  0xd0d0d0d0d00000d0d0d0d0d0d0d0d0d0d0d0d0d0d0d0d0d0d0d0d0d0d0d0d0d0d0d0d0d0d08080808080808080808060600000007000000002f2f2f4949494949492f4949000000004949492f2f494949492f2f2f000d0d0d0d0d0d0d0d0d0d0d0d0d0d0d0d0d0d0d0d0d0d0d0d0d0d0d0d0d0d0d,
  0x707070707070707070707070707070707070707070707070707070707070707070700000008080808080808080808080000000000000d0d0d0d0d0d0d0d0d0d0d0d0d0d0d0d0d0d0d0d0d0d0d0d0d0d000000000d0d0d0d0d0d0d0d0d0d0d0d0d0d0d0d0d0d0d0d0d0d0d0d0d0d0d0d0d0d0d0d0d0d0d0d0d0d0d0d0d0d0d0d,
  0x2f00002f2f2f2f2f2f2f2f2f2f4949494949492f2f2f2f2f2f2f2f4c4c2f4c2f002f2f2f2f2f2f2f492f490d0d0d0d0d0d0d0d0d0d0d0d0d0d0d0d0d0d0d0d0d0d0d0d0d0d0d0d0d0d0d0d0d0d0d0d0d0d0d0d0d0d0d0d0d0d0d0d0d0d0d0d0d060600002f49492f2f0d0d0d0d0d0d0d0d0d0d0d0d0d0d0d0d0d0d0d0d0d0d0d,
  0x2f2f2f2f2f2f2f2f2f2f2f2f2f2f2f2f2f00000606060606060d060606060606060000000000000808080808080808080800000000000008080808080808080808,
  0x707070707070707072f2f2f2f2f2f2f2f2f070707070707070707070606060606060608080808080808080808000000000d0d0d0d0d0d0d49492f49494949492f492f2f2f2f2f2f2f0d0d0d0d0d0d0d0d0d0d0d0d0d0d0d0d0d0d0d0d0d0d0d0d0d0d0d0d0d0d0d0d0d0d0d0d0d0d0d0d0d0d0d0d0d0d0d492f2f2f2f,
  0x6060606000000000000000049492f2f2f492f4949492f2f492f0d0d0d0d0d0d0d0d0d0d0d0d0d0d0d0d0d0d0d0d0d0d0d0d0d0d0d0d0d0d0d0d0d0d0d0d0d0d0d0d0d0d0d0d080808080808080808080d0d2f2f2f492f2f49492f2f2f2f490d0d0d0d0d0d0d0d0d0d0d0d0d0d0d0d0d0d0d0d0d0d0d0d0d0d0d0d0d0d492f2f,
  0x6060d0d0d0d0d0d0d0d0d0d0d0d0d0d0d0d0d0d0d0d0d0d0d0d0d0d0d0d0d0d0d0d0d0d0d0d080808080808080808080d0d0d0000000808080808080808080806060606060000002f2f49492f2f2f2f2f2f2f2f49494949494949490d0d0d0d0d0d0d0d0d0d0d0d0d0d0d0d0d0d0d0d0d0d0d0d0d0d0d0d0d0d0d0d0d0d0d0d,
  0xd2f2f490d0d2f0d0d0d0d0d0d2f0d0d0d0d2f2f2f2f2f2f2f492f2f2f2f2f2f2f2f2f2f2f2f2f062f2f2f000000000000000006060606060606065a5a5a00005a5a5a5a5a5a5a5a5a5a5a5a5a5a5a5a5a5a5a5a5a5a5a5a5a5a5a5a5a5a5a5a5a5a5a5a5a5a5a5a5a5a5a00000000000000595857565555545352,
  0xa0a0a0a0a0a0a0d0a0a0a0a0a0a0a0a0a0a0a0a0a0d0d0d0d0d0d0d0d0d0d0d0d0d0d0d0d0d0d0d0d0d0d0d0d0d0d0d0d0d0d0d0d0d0d0d0d0d0d0d0d0d0d0d0d0d0d0d0d0d0d0d0d0d0d0d0d0d0d0d0d0d0d0d0a0a0a0a0a0a0a0a0a0a0a0a0a0a0a0a0a0a0a0a0a0a0a0a0a0a0a0a0a0a0a0a0a0a0a0a0a0a0a0a0a0a0a0a,
  0x2f2f2f2f2f002f2f2f2f2f2f2f2f2f2f2f2f2f2f2f2f2f2f2f2f2f2f2f2f2f2f2f2f2f2f2f2f2f2f2f2f2f2f2f2f2f2f2f2f2f2f2f2f2f2f2f2f2f2f2f2f2f2f0d0d0d0d0d0d0d0d0d0d0d0d0d0d0d0d0d0d0d0d0d0d0d0d0d0d0d0d0d0d0d0d0d0d0d0d0d0a0a0a0a0a0a0a0a0a0a0a0a0a0a0a0a0a0a0a0a0a0a0a0a0a0a0a,
  0xa100a100a100a100a100a100a100a100a100a100a100a100a100a100a100a100a100a100a100a100a100a100a100a100a100a100a100a100a100a100a100a100a100a100a100a100a100a100a100a100a100a100a100a100a100a100a100a100a100a100a100a100a100a100a100a100a100a100a100a100a100a100a100a10,
  0xa100a100a100a100a100a100a100a100a100a100a100a100a100a100a100a100a100a100a100a100a100a100a100a100a100a100a100a100a100a100a100a100a100a100a100a100a100a100a100a100a100a100a100a100a100a100a100a100a610a0a605f5e5d5c5b0a100a100a100a100a100a100a100a100a100a100a10,
  0xa0a0a0a0a0a0a0a0a0a0a0a0a0a62626262626262620a0a0a0a0a0a0a0a62006200620062000a660a650a640a63000062626262626200000a0a0a0a0a0a62626262626262620a0a0a0a0a0a0a0a62626262626262620a0a0a0a0a0a0a0a000062626262626200000a0a0a0a0a0a62626262626262620a0a0a0a0a0a0a0a,
  0x707b6b5b5b4b4b3b200b1b0af000007070743aeae6262adac0aab37aa0a0a07070700a9a96262a8a7000036a60a0a070707a5a4a4a4a4a3a200a1a09f0707079e079d9c9c62629b9a009998970a0a969594939291908f8e8d8c8b8a898887868584838281807f7e7d7c7b7a797877767574737271706f6e6d6c6b6a696867,
  0xd060607070708080808080800000d080101010101010101010101010101010105060606060606060606060606070606060606060606bb060606060706060606060606bb0606060606060606060606060b0101010101bab90606060606060606060606060606060606060606060606060101b8b7010505050505050505050505,
  0x2f2f2f2f2f2f2f2f2f2f2f2f2f2f2f2f2f2f2f2f2f2f2f2f2f2f2f2f2f2f2f2f2f0000000000000000000000000000000007070707070707070707070707070707070707070707070707070707070707070000000d0d0d0d0d0d0d0d0d0d0d0d0d00060607070708080808080808080808,
  0x8080808080808080808080808080808c1c1c1c1c1c1c1c1c1c1c1c1c1c1c1c108080808080808080808080808080808070a070707070a0a0a0a3c07070707073c3c0a0a0707c00d0d0d0d0a3cbf3c3c0a073c3cbebd073c07bc073c070c070707073c3c3c3c3c0707073c070a3c3c3c0a0a3c3c3c0a07073c070707073c0707,
  0x70707070707070707070707070707070707070707070707070707070707070707070707070707070707070707070707070707070707070707070707070707070707070707070707070707070707070707070707070c0c0707070707070707070707070707070c0c0c0c0c0c0707070700000000070708080808080a10080808,
  0x707070707070707070707070707070707070707070707070707070707070707070707070707070707070707070707070707070707070707070707070707070707070707070707070707070707070707070707070706060c0707070707070707070707070c0c0707070707070707070707070707060606060707070707070707,
  0x7070707070c0c0c070707070c0c0c0c0c0c0c0c0c0c0c070707070707070707070707070707070707070707070707070c070707070707070707070707070707070707070707070707070707070707070707070707070707070707070707070707070707070707070707070707070707070707070707070c0707070707070707,
  0x808080808080808080808080808080808080808080808080808080808080808000000000000000000000000000000000000000000070707070707070707070700000000000000000000000000000000000000000000000000070707070707070707070707070707070707070707070707070707070707070707070707070707,
  0x80808080808080808080808080808080808080808080707070707070707070707070707070707070707070707070707c2c2c2c2c2c2c2c2c2c2c2c2c2c3c2c2c2c2c2c2c2c2c2c2c2c2070707070707070707070707070707070707070707070707070708080808080808080808080808080808080808080808080808080808,
  0x70c0c0c0c070707070707070707070707070707070707070707070707070707070707070707070707070707070707070707070707070707070707070707070c0707070707070707070c070707070707070707070c0c070707070707070707070707070707070707070707070707070707070707070707070707070707070707,
  0x808080808080808080806060606060606060606060606060c0c0c0c0c07070707070707070707070c070c0c0c070707070c070c070707070c07070c0707070707070707070707070707070c0c070707070707070707070c0707070707070c0707070c0707070707070c070c070c0c0c0c0c0c0c0c0c0c0c07070c0c0c0c0c0c,
  0x70707070707070707070707070707070606060606060606060607070707070707070707070707070707070707070707070707070707070707060607070707070c07070707070707070707070707070c07070707070707070707070707070c0707070707070707070c0c0c070808080808080808080808080808080808080808,
  0x707060607070707070707070707070707070707070707070707070707070707070707070606060607070707070707070707070707070707070707070707070707070707070707070707070707070707070707070707070707070707070707070707070707070706060606060606060606060606060606060606060606070707,
  0x707070707070707070700000707070707070707070707070707070707070707070707070707070707070c070707070c0707070707070707070707070707070707070707070707070707070707070707070707070707070707070707070707070707070c0c070707070707070707070707070707070707070c0c0c0707070707,
  0xcbcb0d0d0a0a0a0a0a0a100a0a100acac9c8c70a100a100a100a0ac6c5c40a10000a0a0a0a0a0a0a0a0a0a0a0a0a0a0a0a0a0a0a0a0a0a0a0a0a0a0a0a0a0a0a0a0a0a0a0a0a0a0a0a0a0a0a0a0a0a0a004646464646464646464646464646464646464646464646464646464646464646464646464646464646464646464646,
  0x606080606060600000000000a102f2f2f0a100a100707070707070a0a100a100a100a100a100a100a100a100a100a100a100a100a100a100a100a100a100a100a100a100a100a100a100a100a100a100a100a100a100a100a100a100a100a100a100a100a100a100a100a100a100a100a100a100a100a100a100a100a100a10,
  0x2f0000000000000000000000000000060d000000000000000d0d0d0d0d0d0d0d0d0d0d0d0d0d0d0d0d0d0d0d0d0d0d0d0d0d0d0d0d0d0d0d0d0d0d0d0d0d0d0d0d0d0d0d0d0d0d0d0d0d0d0d0d0d0d0d00000a00000000000a000a0a0a0a0a0a0a0a0a0a0a0a0a0a0a0a0a0a0a0a0a0a0a0a0a0a0a0a0a0a0a0a0a0a0a0a0a0a,
  0x2f2f2f2f2f2f2f2f2f2f2f2f2f2f2f2f2f2f2f2f2f2f2f2f2f2f2f2f2f2f2f2f000d0d0d0d0d0d0d000d0d0d0d0d0d0d000d0d0d0d0d0d0d000d0d0d0d0d0d0d000d0d0d0d0d0d0d000d0d0d0d0d0d0d000d0d0d0d0d0d0d000d0d0d0d0d0d0d0000000000000000000d0d0d0d0d0d0d0d0d0d0d0d0d0d0d0d0d0d0d0d0d0d0d,
  0x6070706060606060606060606060606060606060606060606060606060606060606060d0606060606060606060606060606060606060606060606060606060606060606060606060606060606060606060606,
  0x707070707070707070707070707070707070707070707070707070707070707070707070707070707070707070707070707070707070707070707070707070707070707070707070707070707070707070707070707070707000707070707070707070707070707070707070707070707070707,
  0x7070707070707070707070700000000000000000000000000000000000000000000000000000707070707070707070707070707070707070707070707070707070707070707070707070707070707070707070707070707070707070707070707070707070707070707070707070707070707070707070707070707,
  0xd0d0d0d0d0d0d0d0d0d0d0d0d0d0d0d0d0d0d0d0d0d0d0d0d0d0d0d0d0d0d0d0d0d0d0d0d0d0d0d0d0d0d0d0d0d0d0d0d0d0d0d0d0d0d0d0d0d0d0d0d0d0d000707bb0d0d08080807070d0d0d0d0dbb2f2f2f2f2f2f08080808080808080807060606060606060606060606070706060606060606060606080d0d0706060605,
  0xd0d0d0d060d0d0d0d0d0d0d0d0d0d0d0d0d0d0d0d0d0d0d0d0d0d0d0d0d0d0d0d0d0d0d0d0d0d0d0d0d0d0d0d0d0d0d0d0d0d0d0d0d0d0d0d0d0d0d0d0d0d0d0d0d0d0d0d0d0d0d0d0d0d0d0d0d0d0d0d0d0d0d0d0d0d0d0d0d0d0d0d0d0d060d0d0d07072f2f00000d0d0d0d0d0d0d0d0d0d0d0d0d0d0d0d0d0d0d0d0d0d0d,
  0xd0d0d0d0d0d0d0d0d0d0d0d0d0d0d0d0d0d0d0d0d0d0d0d0d0d0d0d0d0d0d0d0d0d0d0d0d0d0d0d0d0d0d0d0d0d0d0d0d0d0d0d0d0d0d0d0d0d0d0d0d0d0d0d0d0d0d0d0d0d0d0d0d0d0d0d0d0d0d000d0d0d0d0d0d0d0d0d0d0d0d0d0d0d0d0d0d0d0d0d0d0d0d0d0d0d0d0d0d0d0d0d0d0d0d0d0d0d0d0d0d0d0000000000,
  0xd0d0d0d0d0d0d0d0d0d0d0d0d0d0d0d0000000000000000000000000707070707070707070707070707070707070707070707070707070707070707070707070d0d0d0d0d0d0d0d0d0d0d0d0d0d0d0d0d0d0d0d0d0d0d0d0d0d0d0d0d0d0d0d07070707070707070707080808080707000d0d0d0d0d0d0d0d0d0d0d0d0d0d0d,
  0x707070707070707070707070707070707070707070707070707070707070707080808080808080808080808080808070808080808080808070707070707070707070707070707070707070707070707070707070707080808080808080808080007070707070707070707070707070707070707070707070707070707070707,
  0x707070707070707070707070707070707070707070707070707070707070707070707070707070707070707070707070707070707070707070707070707070708080808080808080808080808080807070707070707070707070707070707070707070707070c070c0707070707070707070707070708080808080808080808,
  0x70707070707070707070707070707070707070707070707070707070707070707070707070707070707070707070707070707070707070707070707070707070d000000000000000000000000000000000000000000000000000000000000000000000000000000000000000000000000000000000000000000000000000000,
  0x6060d0d0d0d0d0d0d0d0d0d0d0d0d0d0d0d0d0d0d0d0d0d0d0d0d0d0d0d0d0d0d0d0d0d0d0d0d0d0d0d0d0d0d0d0d0d000000000000000000070707070707070707070707070707070707070707070707070707070707070707070707070707070707070707070707070707070707070000000d0d0d0d0d0d0d0d0d0d0d0d0d,
  0xd062f2f2f2f2f2f2f2f2f2f062f2f2f2f0d0a100a100a100a100a100a100a100a100a100a100a100a100a100a100a100a100a100a100a100a100a100a100a1000000000000000000000000000000000000000000d0d080808080808080808080d0d0d0d0d0d0d0d0d0d0d0d0d0d0d0d0606060d0d0d0d0d0d0d0d0d0d0d0d0d,
  0x606060606062f2f080808080808080808080d0d0d0d0d0d0d0d0d0d0d0d0d0d0d0d0d0d0d0d0d0d0d0d0d0d0d0d0d0d0d0d0d0d0d0d0d0d0d0d0d0d0d0d0d0d0d0d0d0d0d0d0d0d0d0d0d0d0d0d0d0d0d0d0d0d0d0d0d0d2f2f0d0d0a100a100a100a100a100a100a100a100a100a100a100a100a100a10,
  0xa10cc0a100a100a0a0a0a0a0a0a0a0d0a100a100a100a100a100a100a100a100a100a100a100a100a100a100a100a100a100a100a100a100a100a100a100a100a100a100a100a100a100a100a100a0a0a100a100a100a100a100a100a1007070d0d0d0d0d0d0d0d0d0707070707070707070707070707070707070707070707,
  0xd0d0d0d0d0a0d0d0d0a100000000000000000000000000000000000000000000000000000000000000000000000000000000000000a100a10d8d7d60a1000000a100a100a100a100a100a10d5d4d3d20aced1d0cfce0a100a100a100a100a100a100a100a100a100a100a0a0a100a100d0acd0a1007070d0a100a100a100a10,
  0x60606060d0d0d0d0d0d0d0d0d0d0d0d0d0d0d0d0d0d0d0d0d0d0d0d0d0d0d0d0d0d0d0d0d0d0d0d0d0d0d0d0d0d0d0d0d0d0d0d0d0d0d0d000000000000070707070808080808080000002f07070707492f2f49490d0d0d0d0d0d0d0d0d0d0d0d0d0d0d0d0d0d0d0d0d0d0d2f0d0d0d0d2f0d0d0d2f0d0d,
  0x2f0d0d060d0606060d0d0d0d0d0d2f2f2f2f2f2f2f2f2f2f2f2f2f2f2f2f2f2f00000000000008080808080808080808060600000000000000002f2f494949494949494949494949494949490d0d0d0d0d0d0d0d0d0d0d0d0d0d0d0d0d0d0d0d0d0d0d0d0d0d0d0d0d0d0d0d0d0d0d0d0d0d0d0d0d0d0d0d0d0d0d0d0d0d4949,
  0x4e4e4e4e4e4e4e4e4e4e4e4e4e4e4e4e4e4e4e4e4e4e4e4e4e4e4e4e4e06000000000000000000000049492f2f2f2f2f2f2f2f2f2f2f0d0d0d0d0d0d0d0d0d0d0d0d0d0d0d0d0d0d0d0d0d0d0d06062f2f2f2f2f2f2f2f0d0d0d0d0d0d0d0d0d0d0d0d0d0d0d0d0d0d0d0d0d0d0d0d0d0d0d0d08080808080808080808,
  0xd0d0d0d0d080808080808080808080d0d0d0d0d0d0d0d0d0d2f0d0d0d0d0d060600000000080808080808080808080d00060606060606060606060606064949492f2f49492f2f2f2f49492f0d0d0d0d0d0d0d0d0d0d0d0d0d0d0d0d0d0d0d0d0d0d0d0d0d0d0d0d0d0d0d0d0d0d0d0d0d0d0d0d0d0d0d0d0d0d0d492f2f2f,
  0xd0d4c2f4c0d0707070d0d0d0d0d0d0d0d0d0d0d0d0d0d0d0d0d0d0d0d0d0d0d060606060000080808080808080808080000492f0d0d0d0d0d0d0d0d2f0d0d0d0000000000000000002f2f49492f2f49492f2f2f2f2f2f0d0d0d0d0d0d0d0d0d0d0d0d0d0d0d0d0d0d0d0d0d0d0d0d0d0d0d0d0d0d0d0d0d0d0d0d0d0d0d0d0d,
  0x2f490d0d0d060649492f2f490d0d0d0d0d0d0d0d0d0d0d06060d0d0d0000000000000000000000000000000000000000000000000d2f0d2f2f0d0d0d0d0d2f2f0d0d2f2f2f0d2f0d0d0d0d0d0d0d0d0d0d0d0d0d0d0d0d0d0d0d0d0d0d0d0d0d0d0d0d0d0d0d0d0d0d0d0d0d0d0d0d0d0d0d0d0d0d0d0d,
  0xd9d9d9d9d9d9d9d9d9d9d9d9d9d9d9d90000000007070d0a0a0a0a0a0a0a0a0a0d0d0d0d070a0a0a0a0a0a0a0a0a0a0a0a0a0a0a0a0a0a0a0a0a0a0a0a0a0a0a0a0a0a0a0a0a0a0a0a0a0a0a0a0a0a0a000d0d0d0d0d0d0d000d0d0d0d0d0d0d0000000000000000000d0d0d0d0d0d00000d0d0d0d0d0d00000d0d0d0d0d0d00,
  0x808080808080808080800002f490649492f49492f49490d0d0d0d0d0d0d0d0d0d0d0d0d0d0d0d0d0d0d0d0d0d0d0d0d0d0d0d0d0d0d0d0d0d0dd9d9d9d9d9d9d9d9d9d9d9d9d9d9d9d9d9d9d9d9d9d9d9d9d9d9d9d9d9d9d9d9d9d9d9d9d9d9d9d9d9d9d9d9d9d9d9d9d9d9d9d9d9d9d9d9d9d9d9d9d9d9d9d9,
  0xdbdbdbdbdbdbdbdbdbdbdbdbdbdbdbdcdbdbdbdbdbdbdbdbdbdbdbdbdbdbdbdbdbdbdbdbdbdbdbdbdbdbdbdcdbdbdbdbdbdbdbdbdbdbdbdbdbdbdbdbdbdbdbdbdbdbdbdbdbdbdbdcdbdbdbdbdbdbdbdbdbdbdbdbdbdbdbdbdbdbdbdbdbdbdbdbdbdbdbdcdbdbdbdbdbdbdbdbdbdbdbdbdbdbdbdbdbdbdbdbdbdbdbdbdbdbdbda,
  0xdbdbdbdcdbdbdbdbdbdbdbdbdbdbdbdbdbdbdbdbdbdbdbdbdbdbdbdbdbdbdbdcdbdbdbdbdbdbdbdbdbdbdbdbdbdbdbdbdbdbdbdbdbdbdbdbdbdbdbdcdbdbdbdbdbdbdbdbdbdbdbdbdbdbdbdbdbdbdbdbdbdbdbdbdbdbdbdcdbdbdbdbdbdbdbdbdbdbdbdbdbdbdbdbdbdbdbdbdbdbdbdbdbdbdbdcdbdbdbdbdbdbdbdbdbdbdbdb,
  0xdbdbdbdbdbdbdbdbdbdbdbdbdbdbdbdbdbdbdbdcdbdbdbdbdbdbdbdbdbdbdbdbdbdbdbdbdbdbdbdbdbdbdbdbdbdbdbdcdbdbdbdbdbdbdbdbdbdbdbdbdbdbdbdbdbdbdbdbdbdbdbdbdbdbdbdcdbdbdbdbdbdbdbdbdbdbdbdbdbdbdbdbdbdbdbdbdbdbdbdbdbdbdbdcdbdbdbdbdbdbdbdbdbdbdbdbdbdbdbdbdbdbdbdbdbdbdbdb,
  0xdbdbdbdbdbdbdbdcdbdbdbdbdbdbdbdbdbdbdbdbdbdbdbdbdbdbdbdbdbdbdbdbdbdbdbdcdbdbdbdbdbdbdbdbdbdbdbdbdbdbdbdbdbdbdbdbdbdbdbdbdbdbdbdcdbdbdbdbdbdbdbdbdbdbdbdbdbdbdbdbdbdbdbdbdbdbdbdbdbdbdbdcdbdbdbdbdbdbdbdbdbdbdbdbdbdbdbdbdbdbdbdbdbdbdbdbdbdbdbdcdbdbdbdbdbdbdbdb,
  0xdbdbdbdbdbdbdbdbdbdbdbdbdbdbdbdbdbdbdbdbdbdbdbdcdbdbdbdbdbdbdbdbdbdbdbdbdbdbdbdbdbdbdbdbdbdbdbdbdbdbdbdcdbdbdbdbdbdbdbdbdbdbdbdbdbdbdbdbdbdbdbdbdbdbdbdbdbdbdbdcdbdbdbdbdbdbdbdbdbdbdbdbdbdbdbdbdbdbdbdbdbdbdbdbdbdbdbdcdbdbdbdbdbdbdbdbdbdbdbdbdbdbdbdbdbdbdbdb,
  0xdbdbdbdbdbdbdbdbdbdbdbdcdbdbdbdbdbdbdbdbdbdbdbdbdbdbdbdbdbdbdbdbdbdbdbdbdbdbdbdcdbdbdbdbdbdbdbdbdbdbdbdbdbdbdbdbdbdbdbdbdbdbdbdbdbdbdbdcdbdbdbdbdbdbdbdbdbdbdbdbdbdbdbdbdbdbdbdbdbdbdbdbdbdbdbdcdbdbdbdbdbdbdbdbdbdbdbdbdbdbdbdbdbdbdbdbdbdbdbdbdbdbdbdcdbdbdbdb,
  0xdbdbdbdbdbdbdbdbdbdbdbdbdbdbdbdbdbdbdbdbdbdbdbdbdbdbdbdcdbdbdbdbdbdbdbdbdbdbdbdbdbdbdbdbdbdbdbdbdbdbdbdbdbdbdbdcdbdbdbdbdbdbdbdbdbdbdbdbdbdbdbdbdbdbdbdbdbdbdbdbdbdbdbdcdbdbdbdbdbdbdbdbdbdbdbdbdbdbdbdbdbdbdbdbdbdbdbdbdbdbdbdcdbdbdbdbdbdbdbdbdbdbdbdbdbdbdbdb,
  0xdbdbdbdbdbdbdbdbdbdbdbdbdbdbdbdcdbdbdbdbdbdbdbdbdbdbdbdbdbdbdbdbdbdbdbdbdbdbdbdbdbdbdbdcdbdbdbdbdbdbdbdbdbdbdbdbdbdbdbdbdbdbdbdbdbdbdbdbdbdbdbdcdbdbdbdbdbdbdbdbdbdbdbdbdbdbdbdbdbdbdbdbdbdbdbdbdbdbdbdcdbdbdbdbdbdbdbdbdbdbdbdbdbdbdbdbdbdbdbdbdbdbdbdbdbdbdbdc,
  0x50505050505050505050505050505050505050505050505050505050505050505050505050505050505050505050505050000000004f4f4f4f4f4f4f4f4f4f4f4f4f4f4f4f4f4f4f4f4f4f4f000000000000000000000000dddbdbdbdbdbdbdbdbdbdbdbdbdbdbdbdbdbdbdbdbdbdbdbdbdbdbdcdbdbdbdbdbdbdbdb,
  0xd0d0d0d0d0d0d0d0d0d0d0d0d0d0d0d0d0d0d0d0d0d0d0d0d0d0d0d0d0d0d0d0d0d0d0d0d0d0d0d0d0d0d0d0d0d0d0d0d0d0d0d0d0d0d0d0d0d000d0d000d0d000d000d0d0d0d0d000d0d0d0d0d0d0d0d0d0d0d0d0d070d0d0d0d0d0d0d0d0d0d2f0d0000000000e8e7e6e5e4000000000000000000000000e3e3e2e1e0dfde,
  0xd0d0d0d0d0d0d0d0d0d0d0d0d0d0d0d0d0d0d0d0d0d0d0d0d0d0d0d0d0d0d0d0d0d0d0d0d0d0d0d0d0d0d0d0d0000000000000000000000000000000000070707070707070707070707070707070d0d0d0d0d0d0d0d0d0d0d0d0d0d0d0d0d0d0d0d0d0d0d0d0d0d0d0d0d0d0d0d0d0d0d0d0d0d0d0d0d0d0d0d0d0d0d0d0d0d,
  0xd0d0d0d0d0d0d0d0d0d0d0d0d0d0d0d0d0d0d0d0d0d0d0d0d0d0d0d0d0d0d0d0d0d0d0d0d0d0d0d0d0d0d0d0d0d0d0d0000000000000000000000000000000006060d0d0d0d0d0d0d0d0d0d0d0d0d0d0d0d0d0d0d0d0d0d0d0d0d0d0d0d0d0d0d0d0d0d0d0d0d0d0d0d0d0d0d0d0d0d0d0d0d0d0d0d0d0d0d0d0d0d0d0d0d0d,
  0x7070d0d0d0d0d0d0d0d0d0d0d0d000000000000000000000000000000000000000000000000000000000000000000000000000000000d0d0d0d0d0d0d0d0d0d0d0d0d0d0d0d0d0d0d0d0d0d0d0d0d0d0d0d0d0d0d0d0d0d0d0d0d0d0d0d0d0d0d0d0d0d0d0d0d0d0d0d0d0d00000d0d0d0d0d0d0d0d0d0d0d0d0d0d0d0d,
  0xd0d0d0d0d0d0d0d0d0d000d0d0d0d0d000000000606070600070707060706060606060606060606060606060006060606060606060606060606060606060606060606060606060606060606060606062f2f2f2f2f2f2f2f2f2f2f2f2f2f2f2f000000000000060606060606060606062f2f2f2f2f2f2f2f2f2f2f2f2f2f2f2f,
  0x100000d0d0d0d0d0d0d0d0d0d0d0d0d0d0d0d0d0d0d0d0d0d0d0d0d0d0d0d0d0d0d0d0d0d0d0d0d0d0d0d0d0d0d0d0d0d0d0d0d0d0d0d0d0d0d0d0d0d0d0d0d0d0d0d0d0d0d0d0d0d0d0d0d0d0d0d0d0d0d0d0d0d0d0d0d0d0d0d0d0d0d0d0d0d0d0d0d0d0d0d0d0d0d0d0d0d0d0d0d0d0d0d0d0d0d0d0d0d0d0d0d0d0d0d0d,
  0xd0d0d0d0d0d0d0d0d0d0d0d0d0d0d0d0d0d0d0d0d0d0d0d0d0d06060606060606070607060a0a0a0a0a0a0a0a0a0a0a0a0a0a0a0a0a0a0a0a0a0a0a0a0a0a0706070606060909090909090909090909090909090909090909090909090909060607070706060808080808080808080806060606070606060606060706060600,
  0x707010101010101010101010101000707070707070700070707070707070000000d0d0d00000d0d0d0d0d0d00000d0d0d0d0d0d00000d0d0d0d0d0d0000000d0d0d0d0d0d0d0d0d0d0d0d0d0d0d0d0d0d0d0d0d0d0d0d0d0d0d0d0d0d0de9e90d0d0d0d0d0d0d0d0d0d0d0d0d0d0d0d0d0d0d0d0d0d0d0d0d0d0d0d0d0d,
  0xd0d0d0d0d0d0d0d0d0d0d0d0d0d00000d0d0d0d0d0d0d0d0d0d0d0d0d0d0d000d0d000d0d0d0d0d0d0d0d0d0d0d0d0d0d0d0d0d0d0d000d0d0d0d0d0d0d0d0d0d0d0d0d0d0d0d0d0d0d0d0d0d0d0d0d0d000d0d0d0d0d0d0d0d0d0d0d0d,
  0x707070707070708080808080808080808080808080808080808080808080808080808080808080808080808080808080808080808080808080808080808080807070707070707070700000008080808080808080808080808080808080808080808080808080808080808080808080808080808080808080800000000060606,
  0x2f0707070707070707070707070707070707070707070707070707070707070707070707070707070707070707070000000000000000000000000000000000000000000000000000000000000000000000000000000000000000000000070000000707070707070707070707070700070707080807070707070707070707,
  0x808080808080808080808080808080808080808080808080808082f0000000000000000000000000000000d0d0d0d0d0d0d0d0d0d0d0d0d0d0d0d0d0d0d0d0d0d0d0d0d0d0d0d0d0d0d0d0d0d0d0d0d0d0d0d0d0d0d0d0d0d0d0d0d0000000d0d0d0d0d0d0d0d0d0d0d0d0d0d0d0d0d0d0d0d0d0d0d0d0d0d0d0d0d,
  0x2f2f2f2f2f0d0d0d0d0d0d0d0d0d0d0d0d0d0d0d0d0d0d0d0d0d0d0d0d0d0d0d0d0d0d0d0d0d0d0d0d0d0d0000000000080d0d0d0d0d0d0d0d080d0d0d0d0d0d0d0d0d0d0d0d0d0d0d0d0d0d0d0d000000000000000000080808080d0d0d0d0d0d0d0d0d0d0d0d0d0d0d0d0d0d0d0d0d0d0d0d0d0d0d0d0d0d0d0d,
  0x808080808060d0d0d0d0d0d0d0d000000000d0d0d0d0d0d0d0d0d0d0d0d0d0d0d0d0d0d0d0d0d0d0d0d0d0d0d0d0d0d0d0d0d0d0d0d06000d0d0d0d0d0d0d0d0d0d0d0d0d0d0d0d0d0d0d0d0d0d0d0d0d0d0d0d0d0d,
  0xd0d0d0d0d0d0d0d0d0d0d0d0d0d0d0d0d0d0d0d0d0d0d0d0d0d0d0d0d0d0d0d0d0d0d0d0d0d0d0d0d0d0d0d0d0d0d0d0a0a0a0a0a0a0a0a0a0a0a0a0a0a0a0a0a0a0a0a0a0a0a0a0a0a0a0a0a0a0a0a0a0a0a0a0a0a0a0aeaeaeaeaeaeaeaeaeaeaeaeaeaeaeaeaeaeaeaeaeaeaeaeaeaeaeaeaeaeaeaeaeaeaeaeaeaeaeaea,
  0xa0a0a0a0a0a0a0a0a0a0a0a0a0a0a0a0a0a0a0a0a0a0a0a0a0a0a0a0a0a0a0a0a0a0a0a00000000eaeaeaeaeaeaeaeaeaeaeaeaeaeaeaeaeaeaeaeaeaeaeaeaeaeaeaeaeaeaeaeaeaeaeaea0000000000000808080808080808080800000d0d0d0d0d0d0d0d0d0d0d0d0d0d0d0d0d0d0d0d0d0d0d0d0d0d0d0d0d0d,
  0x600000000000000000000000d0d0d0d0d0d0d0d0d0d0d0d0d0d0d0d0d0d0d0d0d0d0d0d0d0d0d0d0d0d0d0d0d0d0d0d0d0d0d0d0d0d0d0d0d0d0d0d0d0d0d0d00000000000000000d0d0d0d0d0d0d0d0d0d0d0d0d0d0d0d0d0d0d0d0d0d0d0d0d0d0d0d0d0d0d0d0d0d0d0d0d0d0d0d,
  0xd0d0d0d0d0d0d0d000000000000000000000d0d0d0d0d0d0d0d0d0d0d0d0d0d0d0d0d0d0d0d0d0d0000000000000000000d0d0d0d0d0d0d0d0d0d0d0d0d0d0d0d0d0d0d0d0d0d0d0d0d0d0d0d0d0d0d0d0d0d0d0d0d0d0d0d0d0d0d0d0d0d0d0d0d0d0d0d0d0d0d,
  0x808080808080807070d0d0d0d0d0d0d0d0d0d0d0d0d0d0d0d0d0d0d0d0d0d0d080808080808080806000d0d0d0d0d0d0d0d0d0d0d0d0d0d0d0d0d0d0d0d0d0d0d00000d0000000d0d000d0d0d0d0d0d0d0d0d0d0d0d0d0d0d0d0d0d0d0d0d0d0d0d0d0d0d0d0d0d0d0d0d0d0d0d0d0d0d0d0d0d0d0d000d00000d0d0d0d0d0d,
  0x80808080800000000000d0d000d0d0d0d0d0d0d0d0d0d0d0d0d0d0d0d0d0d0d00000000000000000000000000000000000000000000000000000000000000000000000000000000000000000000000008080808080808080800000000000000000d0d0d0d0d0d0d0d0d0d0d0d0d0d0d0d0d0d0d0d0d0d0d0d0d0d0d0d0d0d0d,
  0x600000000000d0d0d0d0d0d0d0d0d0d0d0d0d0d0d0d0d0d0d0d0d0d0d0d0d0d060000000808080808080d0d0d0d0d0d0d0d0d0d0d0d0d0d0d0d0d0d0d0d0d0d,
  0x80808080808080808080808080808080808080808080808080808080808080808080808080808080808080808080000080808080808080808080808080808080d0d0808000000000d0d0d0d0d0d0d0d0d0d0d0d0d0d0d0d0d0d0d0d0d0d0d0d0d0d0d0d0d0d0d0d0d0d0d0d0d0d0d0d0d0d0d0d0d0d0d0d0d0d0d0d0d0d0d0d,
  0x608080d0d0d0d0d0d0d0d0d0d0d0d0d0d0d0d0d0d0d0d0d0d0d0d0d0d0d0d0d00000000000000060606060606060606000000000000000808080808080808082f000000002f2f2f00000d0d0d0d0d0d0d0d0d0d0d0d0d0d0d0d0d0d0d0d0d0d0d0d0d0d0d0d0d000d0d0d000d0d0d0d2f2f2f2f00000000002f2f002f2f2f0d,
  0x60606060606060808080808000000002f2f0d0d0d0d0d0d0d0d0d0d0d0d0d0d0d0d0d0d0d0d0d0d0d0d0d0d0d0d070d0d0d0d0d0d0d0d00000000000000000000000000000000000000000000000000000000000000000808080d0d0d0d0d0d0d0d0d0d0d0d0d0d0d0d0d0d0d0d0d0d0d0d0d0d0d0d0d,
  0x80808080808080800000000000d0d0d0d0d0d0d0d0d0d0d0d0d0d0d0d0d0d0d080808080808080800000d0d0d0d0d0d0d0d0d0d0d0d0d0d0d0d0d0d0d0d0d0d060606060606060000000d0d0d0d0d0d0d0d0d0d0d0d0d0d0d0d0d0d0d0d0d0d0d0d0d0d0d0d0d0d0d0d0d0d0d0d0d0d0d0d0d0d0d0d0d0d0d0d0d0d0d0d0d0d,
  0x808080808080800000000000000000000000006060606000000000000000d0d0d0d0d0d0d0d0d0d0d0d0d0d0d0d0d0d,
  0x80808080808000000000000000a0a0a0a0a0a0a0a0a0a0a0a0a0a0a0a0a0a0a0a0a0a0a0a0a0a0a0a0a0a0a0a0a0a0a0a0a0a0a0a0a0a0a0a0a0a0a0a0a0a0a00000000000000000000000000343434343434343434343434343434343434343434343434343434343434343434343434343434343434343434343434343434,
  0x808080808080808080800000000000000002f2f2f2f0d0d0d0d0d0d0d0d0d0d0d0d0d0d0d0d0d0d0d0d0d0d0d0d0d0d0d0d0d0d0d0d0d0d0d0d,
  0xd0d0000062f2f000d0d0d0d0d0d0d0d0d0d0d0d0d0d0d0d0d0d0d0d0d0d0d0d0d0d0d0d0d0d0d0d0d0d0d0d0d0d0d0d0d0d,
  0x606060606080808082f2f2f2f2f2f2f2f2f2f2f0d0d0d0d0d0d0d0d0d0d0d0d0d0d0d0d0d0d0d0d0d0d00000000000000000d080808080808080808080d0d0d0d0d0d0d0d0d0d0d0d0d0d0d0d0d0d0d0d0d0d0d0d0d0d0d0d0d,
  0xd0d0d0d0d0d0d0d0d0d0d0d0d0d0d0d0d0d0d0d0d0d0d0000000000000000000000000000000000000000080808080808080d0d0d0d0d0d0d0d0d0d0d0d0d0d0d0d0d0d0d0d0d000000000000000000000000000000000000000000000000000000000000000000000000000000000000000000000000,
  0x2f00000000000000000000000000000008080808080808080808080808080808080808080808080808080808080800000000060606060606062f2f2f2f2f2f2f2f2f2f2f2f2f2f2f0d0d0d0d0d0d0d0d0d0d0d0d0d0d0d0d0d0d0d0d0d0d0d0d0d0d0d0d0d0d0d0d0d0d0d0d0d0d0d0d0d0d0d0d0d0d0d0d0d0d0d0d0d492f49,
  0x8080808080808080808000000000000000d0d0d0d0d0d0d0d0d0d0d0d0d0d0d0d0d0d0d0d0d0d0d0d0d0000480000000000000000000000060606064806062f2f49492f2f2f2f4949490d0d0d0d0d0d0d0d0d0d0d0d0d0d0d0d0d0d0d0d0d0d0d0d0d0d0d0d0d0d0d0d0d0d0d0d0d0d0d0d0d0d0d0d0d492f2f,
  0xd06062f0d0d0d0d0d0d0d0d0d0d0d0d0d0d0d0d0d0d0d0d0d0d0d0d0d0d0d0d0d0d0d0d0d0d0d00000000000000000d49490d0606060608080808080808080808002f2f2f2f2f2f2f2f492f2f2f2f2f0d0d0d0d0d0d0d0d0d0d0d0d0d0d0d0d0d0d0d0d0d0d0d0d0d0d0d0d0d0d0d0d0d0d0d0d2f2f2f,
  0x808080808080808080808080808080808080808000606060d060d080808080808080808082f49062f2f2f2f060606060d4a4a0d49492f2f2f2f2f2f2f2f2f4949490d0d0d0d0d0d0d0d0d0d0d0d0d0d0d0d0d0d0d0d0d0d0d0d0d0d0d0d0d0d0d0d0d0d0d0d0d0d0d0d0d0d0d0d0d0d0d0d492f2f,
  0x2f0606060606062f2f492f49492f2f2f4949490d0d0d0d0d0d0d0d0d0d0d0d0d0d0d0d0d0d0d0d0d0d0d0d0d000d0d0d0d0d0d0d0d0d0d0d0d0d0d0d0d0d0d,
  0x808080808080808080800000000002f2f2f2f2f2f2f2f4949492f0d0d0d0d0d0d0d0d0d0d0d0d0d0d0d0d0d0d0d0d0d0d0d0d0d0d0d0d0d0d0d0d0d0d0d0d0d0d0d0d0d0d0d0d0d0d0d000000000000060d0d0d0d0d0d0d0d0d0d000d0d0d0d0d0d0d0d0d0d0d0d0d0d0d000d0d0d0d000d000d0d0d0d0d0d0d,
  0x2f2f2f2f2f0000002f2f2f2f2f2f2f000049490d0d0d0d0d00000000002f0000000000000d0000494949000049490000494949492f492f0d2f2f000d0d0d0d0d000d0d000d0d0d0d0d0d0d000d0d0d0d0d0d0d0d0d0d0d0d0d0d0d0d0d0d0d0d0d0d00000d0d00000d0d0d0d0d0d0d0d0049492f2f,
  0xd0d0d2f060006060808080808080808080806060606060d0d0d0d2f492f2f2f49492f2f2f2f2f2f2f2f4949490d0d0d0d0d0d0d0d0d0d0d0d0d0d0d0d0d0d0d0d0d0d0d0d0d0d0d0d0d0d0d0d0d0d0d0d0d0d0d0d0d0d0d0d0d0d0d0d0d0d0d0d0d,
  0x808080808080808080800000000000000000d060d0d2f2f492f2f492f49492f492f2f2f2f2f2f49492f0d0d0d0d0d0d0d0d0d0d0d0d0d0d0d0d0d0d0d0d0d0d0d0d0d0d0d0d0d0d0d0d0d0d0d0d0d0d0d0d0d0d0d0d0d0d0d0d,
  0x2f2f0d0d0d0d06060606060606060606060606060606060606060606062f2f492f2f4949494900002f2f2f2f49492f0d0d0d0d0d0d0d0d0d0d0d0d0d0d0d0d0d0d0d0d0d0d0d0d0d0d0d0d0d0d0d0d0d0d0d0d0d0d0d0d0d0d0d0d0d0d0d,
  0x60606060606060606060606060000000000000808080808080808080800000000000000000000000d0606062f2f492f49492f2f2f2f2f2f2f2f4949490d0d0d0d0d0d0d0d0d0d0d0d0d0d0d0d0d0d0d0d0d0d0d0d0d0d0d0d0d0d0d0d0d0d0d0d0d0d0d0d0d0d0d0d0d0d0d0d,
  0x8080808080808080808000000000000000d2f492f2f2f2f2f2f49492f492f0d0d0d0d0d0d0d0d0d0d0d0d0d0d0d0d0d0d0d0d0d0d0d0d0d0d0d0d0d0d0d0d0d0d0d0d0d0d0d0d0d0d0d,
  0x7060606080808080808080808080808000000002f2f2f2f2f492f2f2f2f49492f2f2f00000d0d0d0d0d0d0d0d0d0d0d0d0d0d0d0d0d0d0d0d0d0d0d0d0d0d0d,
  0x62f2f492f2f2f2f2f2f2f2f2f4949490d0d0d0d0d0d0d0d0d0d0d0d0d0d0d0d0d0d0d0d0d0d0d0d0d0d0d0d0d0d0d0d0d0d0d0d0d0d0d0d0d0d0d0d,
  0xd000000000000000000000000080808080808080808080808080808080808080a0a0a0a0a0a0a0a0a0a0a0a0a0a0a0a0a0a0a0a0a0a0a0a0a0a0a0a0a0a0a0a09090909090909090909090909090909090909090909090909090909090909090000000000000000000000000000000000000000000000000000000000000000,
  0x80808080808080808080000000000000000000606062f494a494a2f492f2f000049490049494949492f0d0d0d0d0d0d0d0d0d0d0d0d0d0d0d0d0d0d0d0d0d0d0d0d000d0d000d0d0d0d0d0d0d0d00000d00000d0d0d0d0d0d0d,
  0x490d060d2f494949492f2f00002f2f2f2f4949490d0d0d0d0d0d0d0d0d0d0d0d0d0d0d0d0d0d0d0d0d0d0d0d0d0d0d0d0d0d0d0d0d0d0d0d0d0d0d00000d0d0d0d0d0d0d0d0000000000000000000000000000000000000000000000000000000000000000,
  0xd0d0d0d0d0d0d0d0d0d0d0d0d0d0d0d0d0d0d0d0d0d0d0d0d0d0d0d0d0d0d0d0d0d0d0d2f2f2f49492f2f2f2f2f2f0d00000000000000002f06060606060606062f2f2f2f4a492f2f2f2f2f2f0d0d0d0d0d0d0d0d0d0d0d0d0d0d0d0d0d0d0d0d0d0d0d0d0d0d0d0d0d0d0d0d0d0d0d0d0d0d0d0d2f2f2f2f2f2f2f2f2f2f0d,
  0xd0d0d0d0d0d0d0d0d0d0d0d0d0d0d0d0d0d0d0d0d0d0d0d0d0d0d0d0d0d0d0d0d0d0d0d0d0d0d0d0d0d0d0d0d0d0d0d0d0d0d0d0d0d0d0d0d000000000000000000000000000000000000000000000000000000000006060606060d0606062f2f492f2f2f2f2f2f2f2f2f2f2f2f2f4a4a4a4a4a4a0d0d0d0d,
  0xd0d0d0d0d0d0d0d0d0d0d0d0d0d060600000008080808080808080808080808080808080808080808080808080808080000000000000000000006060606060d2f492f2f2f2f2f2f002f2f2f2f2f2f2f490d0d0d0d0d0d0d0d0d0d0d0d0d0d0d0d0d0d0d0d0d0d0d0d0d0d0d0d0d0d0d0d0d0d0d0d0d000d0d0d0d0d0d0d0d0d,
  0x2f2f492f2f492f2f2f2f2f2f2f49002f2f2f2f2f2f2f2f2f2f2f2f2f2f2f2f2f2f2f2f2f2f00000d0d0d0d0d0d0d0d0d0d0d0d0d0d0d0d,
  0xd0d0d0d0d0d0d0d0d0d0d0d0d0d0d0d0d0d0d0d0d0d000d0d000d0d0d0d0d0d0000000000000808080808080808080800000000000000002f4a2f2f2f2f2f2f2f002f2f002f0000002f2f2f2f2f2f0d0d0d0d0d0d0d0d0d0d0d0d0d0d0d0d0d0d0d0d0d0d0d0d0d0d0d0d0d0d0d0d0d0d0d0d0d0d000d0d000d0d0d0d0d0d0d,
  0x8080808080808080808000000000000000d2f492f4949002f2f0049494949490d0d0d0d0d0d0d0d0d0d,
  0x60649492f2f0d0d0d0d0d0d0d0d0d0d0d0d0d0d0d0d0d0d0d000000000000000000000000000000000000000000000000000000000000000000000000000000000000000000000000000000000000000000000000000000000000000000000000000000000000000000000000000000000000000000000000,
  0x60000000000000000000000000007070707070707070707070707070707070707070707070707070707070808080808080808080808080808080808080808080000000000000000000000000000000d000000000000000000000000000000000000000000000000000000000000000000000000000000000000000000000000,
  0x60606060600080808080808080808080808080808080808080808080808080808080808080808080808080808080808080808080808080808080808080808080808080808080808080808080808080808080808080808080808080808080808080808080808080808080808080808080808080808,
  0x10101010101010101000d0d0d0d0d0d0d0d0d0d0d0d0d0d0d0d0d0d0d0d0d0d0d0d0d0d0d0d0d0d0d0d0d0d0d0d0d0d0d0d0d0d0d0d0d0d0d,
  0x6060000000008080808080808080808000d0d0d0d0d0d0d0d0d0d0d0d0d0d0d0d0d0d0d0d0d0d0d0d0d0d0d0d0d0d0d000000000000000d0d0d0d0d0d0d0d0d0d0d0d0d0d0d0d0d0d0d0d0d0d0d0d0d0d0d0d0d0d0d0d0d0d0d0d0d0d0d0d0d0d0d0d0d0d0d0d0d0d0d0d0d0d0d0d0d,
  0x62f2f2f2f2f00000d0d0d0d0d0d0d0d0d0d0d0d0d0d0d0d0d0d0d0d0d0d0d0d0d0d0d0d0d0d0000000000000000000000000000000000000000000000000000000000000000000000000000000000000000000000000000000000000000000000000000000000000000000000000000000000000000,
  0xd0d0d00000000000d0d0d0d0d0d0d0d0d0d0d0d0d0d0d0d0d0d0d0d0d000808080808080800080808080808080808080000000000000000000007060d0d0d0d0707070706060606062f2f2f2f2f2f2f0d0d0d0d0d0d0d0d0d0d0d0d0d0d0d0d0d0d0d0d0d0d0d0d0d0d0d0d0d0d0d0d0d0d0d0d0d0d0d0d0d0d0d0d0d0d0d0d,
  0xa0a0a0a0a0a0a0a0a0a0a0a0a0a0a0a0a0a0a0a0a0a0a0a0a0a0a0a0a0a0a0a090909090909090909090909090909090909090909090909090909090909090900000000000000000000000000000000000000000000000000000000000000000000000000000000000000000000000000000000000000000000000000000000,
  0x60606060808080808080808080808080808080808080808080808,
  0x49494949494949494949494949494949494949494949494949494949494949494949494949494949494949494949490d2f000000000d0d0d0d0d0d0d0d0d0d0d0d0d0d0d0d0d0d0d0d0d0d0d0d0d0d0d0d0d0d0d0d0d0d0d0d0d0d0d0d0d0d0d0d0d0d0d0d0d0d0d0d0d0d0d0d0d0d0d0d0d0d0d0d0d0d0d0d0d0d0d0d0d0d0d,
  0x494900000000000000000000002f0d060d0d000000000000000000000000000000000000000000000000000000000000000000000000000000000000000000000000000000000000000000000000000000000d0d0d0d0d0d0d0d0d0d0d0d0d2f2f2f2f000000000000004949494949494949,
  0xd0d0d0d0d0d0d0d0d0d0d0d0d0d0d0d00000000000000000d0d0d0d00000000000000000000000000000000000d0d0d000000000000000000000000000000000000000000000000000000000000000000000000000000000000000000000000000d0d0d0d0d0d0d0d0d0d0d0d0d0d0d0d0d0d0d0d0d0d0d0d0d0d0d0d0d0d0d,
  0xd0d0d0d0d0d0d0d0d0d0d0d0d00000000000d0d0d0d0d0d0d0d0d0d0d0d0d0d0d0d0d0d0d0d0d0d0d0d0d0d0d0d0d0d0d0d0d0d0d0d0d0d0d0d0d0d0d0d0d0d0d0d0d0d0d0d0d0d0d0d0d0d0d0d0d0d0d0d0d0d0d0d0d0d0d0d0d0d0d0d0d0d0d0d0d0d0d0d0d0d0d0d0d0d0d0d0d0d0d0d0d0d0d0d0d0d0d0d0d0d0d,
  0x1010101062f2f0700000d0d0d0d0d0d0d0d0d0d000000000000000d0d0d0d0d0d0d0d0d,
  0x2f2f2f2f2f01010101010101012f2f2f2f2f490707072f2f2f492f0707070707070707070707070707070707070707070707070707070707070707070707070707070707070707070707070707070707070707070707070000070707070707070707070707070707070707070707070707070707070707070707070707070707,
  0x7070707070707070707070707070707070707070707070707070707070707070707070707070707070707070707070707070707070707070707072f2f2f2f0707070707070707070707070707070707070707070707070707070707072f2f2f2f2f2f2f07072f2f2f,
  0x72f2f2f070707070707070707070707070707070707070707070707070707070707070707070707070707070707070707070707070707070707070707070707070707070707,
  0x8080808080808080808080808080808080808080808080808000000000000000000070707070707070707070707070707070707070707070707070707070707070707070707070707070707070707070707070707070707070707070707070707070707070707070707070707070707070707070707070707,
  0x3c3c3c3c3c3c3c3c3c3c3c3c3c3c3c3c3c3c3c3c3c3c3c3c0a0a0a0a0a0a0a0a0a0a0a0a0a0a0a0a0a0a000a0a0a0a0a0a0a3c3c3c3c3c3c3c3c3c3c3c3c3c3c3c3c3c3c3c3c3c3c3c3c3c3c0a0a0a0a0a0a0a0a0a0a0a0a0a0a0a0a0a0a0a0a0a0a0a0a0a0a3c3c3c3c3c3c3c3c3c3c3c3c3c3c3c3c3c3c3c3c3c3c3c3c3c3c,
  0xa0a0a0a0a0a0a0a0a0a0a0a0a0a0a0a0a0a0a0a0a0a3c3c3c3c3c3c3c3c3c3c3c3c3c3c3c3c3c3c3c3c3c3c3c3c3c3c0a0a0a0a0a0a0a0a0a0a0a000a0a0a0a0a0a0a000a000a0a0a0a3c3c3c3c3c3c3c3c003c3c3c3c00003c3c00003c00003c3c003c0a0a0a0a0a0a0a0a0a0a0a0a0a0a0a0a0a0a0a0a0a0a0a0a0a0a3c3c,
  0x3c3c3c3c3c3c3c3c3c3c3c3c3c3c3c3c3c3c3c3c0a0a0a0a0a0a0a0a0a0a0a0a0a0a0a0a0a0a0a0a0a0a0a0a0a0a003c3c3c3c3c3c3c0000003c003c3c3c3c3c003c3c3c3c003c3c0a0a0a0a0a0a0a0a0a0a0a0a0a0a0a0a0a0a0a0a0a0a0a0a0a0a003c3c3c3c3c3c3c003c3c3c3c3c3c3c3c00003c3c3c3c003c3c0a0a0a0a,
  0xa0a0a0a0a0a0a0a0a0a0a0a0a0a0a0a0a0a3c3c3c3c3c3c3c3c3c3c3c3c3c3c3c3c3c3c3c3c3c3c3c3c3c3c0a0a0a0a0a0a0a0a0a0a0a0a0a0a0a0a0a0a0a0a0a0a0a0a0a0a3c3c3c3c3c3c3c3c3c3c3c3c3c3c3c3c3c3c3c3c3c3c3c3c3c3c0a0a0a0a0a0a0a0a0a0a0a0a0a0a0a0a0a0a0a0a0a0a0a0a0a0a3c3c3c3c3c3c,
  0x3c3c3c3c3c3c3c3c3c3c3c3c3c3c3c3c0a0a0a0a0a0a0a0a0a0a0a0a0a0a0a0a0a0a0a0a0a0a0a0a0a0a3c3c3c3c3c3c3c3c3c3c3c3c3c3c3c3c3c3c3c3c3c3c3c3c3c3c0a0a0a0a0a0a0a0a0a0a0a0a0a0a0a0a0a0a0a0a0a0a0a0a0a0a3c3c3c3c3c3c3c3c3c3c3c3c3c3c3c3c3c3c3c3c3c3c3c3c3c3c0a0a0a0a0a0a0a0a,
  0xa0a0a0a073c3c3c3c3c3c3c3c3c3c3c3c3c3c3c3c3c3c3c3c3c3c3c3c3c0a0a0a0a0a0a070a0a0a0a0a0a0a0a0a0a0a0a0a0a0a0a0a0a0a0a0a0a0a0a0a073c3c3c3c3c3c3c3c3c3c3c3c3c3c3c3c3c3c3c3c3c3c3c3c3c00000a0a0a0a0a0a0a0a0a0a0a0a0a0a0a0a0a0a0a0a0a0a0a0a0a0a0a0a3c3c3c3c3c3c3c3c3c3c,
  0xa0a0a0a0a0a0a0a0a0a0a0a0a0a0a0a073c3c3c3c3c3c3c3c3c3c3c3c3c3c3c3c3c3c3c3c3c3c3c3c3c0a0a0a0a0a0a070a0a0a0a0a0a0a0a0a0a0a0a0a0a0a0a0a0a0a0a0a0a0a0a0a073c3c3c3c3c3c3c3c3c3c3c3c3c3c3c3c3c3c3c3c3c3c3c3c3c0a0a0a0a0a0a070a0a0a0a0a0a0a0a0a0a0a0a0a0a0a0a0a0a0a0a0a,
  0x80808080808080808080808080808080808080808080808080808080808080808080808080808080808080808080808080800000a3c0a0a0a0a0a0a070a0a0a0a0a0a0a0a0a0a0a0a0a0a0a0a0a0a0a0a0a0a0a0a0a073c3c3c3c3c3c3c3c3c3c3c3c3c3c3c3c3c3c3c3c3c3c3c3c3c0a0a0a0a0a0a070a0a0a0a0a0a0a0a0a,
  0x70707070707070707072f07070707070707072f2f2f2f2f2f2f2f2f2f2f2f2f2f2f2f2f2f2f2f2f2f2f2f2f2f2f2f2f2f2f2f2f2f2f2f2f2f2f2f2f2f2f2f2f2f2f2f2f2f070707072f2f2f2f2f2f2f2f2f2f2f2f2f2f2f2f2f2f2f2f2f2f2f2f2f2f2f2f2f2f2f2f2f2f2f2f2f2f2f2f2f2f2f2f2f2f2f2f2f2f2f2f2f2f2f,
  0x2f2f2f2f2f2f2f2f2f2f2f2f2f2f2f002f2f2f2f2f000000000000000000000000000000060606060607072f07070707,
  0x2f2f2f2f2f002f2f002f2f2f2f2f2f2f00002f2f2f2f2f2f2f2f2f2f2f2f2f2f2f2f2f002f2f2f2f2f2f2f,
  0x70d000000000808080808080808080800000d0d0d0d0d0d0d2f2f2f2f2f2f2f0000000d0d0d0d0d0d0d0d0d0d0d0d0d0d0d0d0d0d0d0d0d0d0d0d0d0d0d0d0d0d0d0d0d0d0d0d0d0d0d0d0d0d0d0d0d,
  0x70000000000080808080808080808082f2f2f2f0d0d0d0d0d0d0d0d0d0d0d0d0d0d0d0d0d0d0d0d0d0d0d0d0d0d0d0d0d0d0d0d0d0d0d0d0d0d0d0d0d0d0d0d00000000000000000000000000000000000000000000000000000000000000000000000000000000000000000000000000000000000000000000000000000000,
  0x2f2f2f2f2f2f2f08080808080808080800000d0d0d0d0d0d0d0d0d0d0d0d0d0d0d0d0d0d0d0d0d0d0d0d0d0d0d0d0d0d0d0d0d0d0d0d0d0d0d0d0d0d0d0d0d0d0d0d0d0d0d0d0d0d0d0d0d0d0d0d0d0d0d0d0d0d0d0d0d,
  0x6060000000008080808080808080808000000000d2f2f2f2f2f2f2f0a0a0a0a0a0a0a0a0a0a0a0a0a0a0a0a0a0a0a0a0a0a0a0a0a0a0a0a0a0a0a0a0a0aebebebebebebebebebebebebebebebebebebebebebebebebebebebebebebebebebeb,
  0x808080807080808070808080808080808080808080808080808080808080808080808080808080808080808080808080808080808,
  0x808080808080808080808080808080708080808080808080808080808080808080808080808080808080808080808080808080808080808080808080800,
  0xd000d0d0d0d000d0d0d0d000d0d0d0d0d0d0d000d0d0d0d00000d000d0d000d000d000d000d000d00000d000d0d000d0d0d000d000d000d000000000d0000000000000d000d000d0d0d0d000d0d0d0d0d0d0d0d0d0d000d00000d000d0d000d0d0d0d0d0d0d0d0d0d0d0d0d0d0d0d0d0d0d0d0d0d0d0d0d0d0d000d0d0d0d,
  0x707000000000000000000000000000000000000000000000000000000000000000000000000000000000000000000000000000000000d0d0d0d0d0d0d0d0d0d0d0d0d0d0d0d0d000d0d0d0d0d000d0d0d00000000000d0d0d0d0d0d0d0d0d0d0d0d0d0d0d0d0d000d0d0d0d0d0d0d0d0d0d,
  0xecececececececececec0c0c0c0c0c0c0c0c0c0c0c0c0c0c0c0c0c0c0c0c0c0c0c0c0c0c0c0c0c0c0c0c0c0c0c0c0cec0c0c0c0c0c0c0c0c0c0c0c0c0c0c0cec0c0c0c0c0c0c0c0c0c0c0c0c0c0c0cecec0c0c0c0c0c0c0c0c0c0c0c0c0c0c0cecececececececececececec0c0c0c0c0c0c0c0c0c0c0c0c0c0c0c0c0c0c0c0c,
  0xc0c0707070707070707070707070c0c0c0c0c0c0707070707070707070707070707070707070707070707070707070707070707070707070707070707070707070707070707070707070707070707070c070707070707070707070707070707070707070707070707070707070707070c0c0c08080808080808080808080808,
  0xededededededededededededededededededededededededededecececececececececececececececececececececececececececececececececececececececececececececececececececececececec0c0707070707070707070707070707070707070c0c0c0c0c0c0c0c0c0c07070c0707070707070707070707070707,
  0xecececececececececececececececececececececececececec0c0c0c0c0c0cecececececececececececececec0c0cececececececec070707070707070707ecececec070c0c0c0c0c0c0c0c0c07070c07070707070707070707070707070707070707070c07070707070707070707ececececececececececececec0c0c07,
  0xececec0c0c0c0c0c0c0c0c0c0c0c0c0cececec0c0c0c0c0c0c0c0c0c0c0c0c0cecececececececec0c0c0c0c0c0c0c0c0c0c0c0c0c0c0c0c0c0c0c0c0c0c0c0c0c0c0c0c0c0c0c0c0c0c0c0c0c0c0c0c0c0c0c0c0c0c0c0c0c0c0c0c0c0c0c0c0c0c0c0c0c0c0c0c0c0c0c0c0c0c0c0c0c0c0c0c0c0c0c0c0c0c0c0c0c0c0c0c,
  0xecececececececececececececececececececec0c0c0c0c0c0c0c0c0c0c0c0cececececececec0c0c0c0c07070707070707070707070707070707070707070707070707070707070707070707070707070707070707070707070707070707070707070707070707070707070707070707070707070707070707070707070707,
  0x707070707070707070707070707070707070707070707070707070707070707ecececececec07070707070707070707ecececececececec0707070707070707070707070707070707070707070707070707070707070707070707070707070707070707070707070707070707070707ecececec070707070707070707070707,
  0xecececececececececececececececececececececececececececececececececececececececececececececececececececececececececececececececececececececececececececececec0c0cecec070707070707070707070707070707070707070707070707070707070707ecececececececec0707070707070707,
  0xc0c0c0c0c0cec0c0c0c0c0c0c0c0c0c0c0c0c0c0c0c0c0c0c0c0c0c0c0c0c0c0c0c0c0c0c0c0c0c0c0c0c0c0c0c0c0c0c0c0c0c0c0c0c0c0c070c0c0c0c0c0c0c0c0c0c070c0c0c0c0c0c0c0c0c0c0c0c0c0c0c0c0c0c0c0c0c0c0c0c0c0c0c0c0c0c0c0c0c0c0c0c0c0c0c0c0c0c0c0c0c0c0c070707070707070707070707,
  0xececececec0c0c0cececec0c0c0c0c0cecec0c0c0c0c0c0c0c0c0c0c0c0c0c0cecececececececececececec0c0c0c0c0c0c0c0c0c0c0c0c0c0c0c0c0c0c0c0c0c0c0c0c0c0c0c0c0c0c0c0c0c0c0c0c0c0c0c0c0c0c0c0c0c0c0c0c0c0c0c0c0c0c0c0c0c0c0c0c0c0c0c0c0c0c0c0c0c0c0c0c0c0c0c0c0c0c0c0c0c0c0c0c,
  0xececececececececececececececececececececececececececececececececececececececececec0c0c0c0c0c0c0cececececececececececececec0c0c0cececececececececec0c0c0c0c0c0c0cececececececec0c0c0c0c0c0c0c0c0c0c0c0c0c0c0c0c0c0c0c0c0c0c0c0c0cececececececececec0c0c0c0c0c0c0c,
  0x808080808080808080800000000000000000000000000000000000000000000000000000000000000000000000000070707070707070707070707070707070707070707070707070707070707070707070707070707070707070707070707070707070707070007070707070707070707070707070707070707]

/-- The cases of the `switch` in `tmu_get_stage_one_value_internal`, lines 3296-3312. -/
def ucdSwitchOne : List (Nat × Nat) := [
  (1357, 247), (1358, 220), (1390, 248), (1392, 249), (1437, 250), (1495, 251), (1520, 214), (1521, 214), (1522, 214), (1523, 214), (1524, 252), (1536, 220),
  (1574, 253), (7168, 254), (7169, 255), (7170, 256), (7171, 257)]

/-- The `switch` in `tmu_get_stage_two_value_internal`, lines 3325-3374. -/
def ucdSwitchTwo (k offset : Nat) : Nat :=
  if k = 0 then 0
  else if k = 1 then (if offset < 96 then 78 else 79)
  else if k = 2 then (if offset < 40 then 79 else 80)
  else if k = 3 then (if offset = 0 then 6 else 13)
  else if k = 4 then 13
  else if k = 5 then 7
  else if k = 6 then (if offset = 6 ∨ offset = 19 then 7 else 12)
  else if k = 7 then (if offset ≥ 6 ∧ offset < 16 then 7 else 12)
  else if k = 8 then (if offset ≥ 52 ∧ offset < 54 then 12 else 7)
  else if k = 9 then (if offset = 22 then 0 else 7)
  else if k = 10 then (if offset = 0 then 13 else 0)
  else if k = 11 then (if offset = 124 then 13 else 0)
  else if k = 12 then (if offset ≥ 110 ∧ offset < 112 then 0 else 13)
  else if k = 13 then (if offset < 90 then 13 else 0)
  else if k = 14 then (if offset < 123 then 13 else 0)
  else if k = 15 then (if offset < 73 then 13 else 0)
  else if k = 16 then (if offset ≥ 96 ∧ offset < 127 then 8 else 0)
  else if k = 17 then (if offset < 26 then 13 else 0)
  else if k = 18 then (if offset < 68 then 13 else 0)
  else if k = 19 then (if offset < 71 then 13 else 0)
  else if k = 20 then (if offset < 16 then 13 else 0)
  else if k = 21 then (if offset = 119 then 13 else 0)
  else if k = 22 then (if offset < 86 then 13 else 0)
  else if k = 23 then (if offset = 0 ∨ offset = 8 then 13 else 0)
  else if k = 24 then (if offset < 124 then 13 else 0)
  else if k = 25 then (if offset < 118 then 7 else 0)
  else if k = 26 then (if offset ≥ 96 ∧ offset < 116 then 8 else 0)
  else if k = 27 then (if offset < 113 then 0 else 8)
  else if k = 28 then (if offset ≥ 44 ∧ offset < 48 then 236 else 12)
  else if k = 29 then 236
  else if k = 30 then 12
  else if k = 31 then (if offset < 123 then 12 else 238)
  else if k = 32 then (if offset ≥ 62 ∧ offset < 70 then 7 else 12)
  else if k = 33 then (if offset < 80 then 12 else 7)
  else if k = 34 then (if offset < 116 then 7 else 236)
  else if k = 35 then (if offset = 76 then 236 else 12)
  else if k = 36 then (if offset < 126 then 236 else 0)
  else if k = 37 then (if offset = 93 then 13 else 0)
  else if k = 38 then (if offset = 52 ∨ offset = 64 then 13 else 0)
  else if k = 39 then (if offset = 29 ∨ offset = 32 then 13 else 0)
  else if k = 40 then (if offset = 33 ∨ offset = 48 then 13 else 0)
  else if k = 41 then (if offset = 96 then 13 else 0)
  else if k = 42 then (if offset < 30 then 13 else 0)
  else if k = 43 then (if offset = 74 then 13 else 0)
  else if k = 44 then (if offset < 32 then 1 else 183)
  else if k = 45 then 1
  else if k = 46 then 47
  else if k = 47 then (if offset < 112 then 47 else 1)
  else 0

end Tm.Uni
