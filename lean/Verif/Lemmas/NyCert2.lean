import Verif.Lemmas.NyStabPoly

/-!
# Certificates for the stability regions of the Nystrom methods

Generated by `/verif/tools/gen_nystab.py`, checked here by the kernel. Proof machinery for `Props/NystromStability.lean`.
-/

set_option maxRecDepth 1000000

namespace Extensisq

/-- The trace and the determinant for `Fi5N`, times `Fi5N_nyN`. -/
def Fi5N_nyN : ℕ := 420263251200

def Fi5N_nyT : List (List ℤ) :=
    [[840526502400, 420263251200, 210131625600, 70043875200, 17510968800, 3502193760, 673498800], [420263251200, 210131625600, 70043875200, 17510968800,
    3771593280, 230326200], [35021937600, 17510968800, 5343090480, 807281280, 29034000], [1167397920, 497086200, 68279760, 1593600], [14049360, 2481600,
    32000], [32000]]

def Fi5N_nyD : List (List ℤ) :=
    [[420263251200, 420263251200, 210131625600, 70043875200, 17510968800, 3502193760, 673498800], [0, 0, 0, 0, 269399520, -443172600], [0, 0, 89799840,
    -539716320, 135457200], [0, -86612760, 119923560, -24527100], [9516780, -9374460, 2630150], [549092, -124943], [10272]]

theorem Fi5N_nyTr : eqQ (nyTr Fi5N varA varB) Fi5N_nyN Fi5N_nyT = true := by decide +kernel

theorem Fi5N_nyDet : eqQ (nyDet Fi5N varA varB) Fi5N_nyN Fi5N_nyD = true := by decide +kernel

def Fi5N_nyR1_p : List (List ℤ) :=
    [[420263251200, 420263251200], [-210131625600, -420263251200, -210131625600], [70043875200, 210131625600, 210131625600, 70043875200], [-17510968800,
    -70043875200, -105065812800, -70043875200, -17510968800], [3502193760, 17510968800, 35021937600, 35021937600, 17510968800, 3502193760], [-673498800,
    -3771593280, -9114683760, -12033178560, -9114683760, -3771593280, -673498800], [0, 443172600, 1676146680, 2899189800, 2899189800, 1676146680,
    443172600], [0, 0, -135457200, -421905240, -582412860, -421905240, -135457200], [0, 0, 0, 24527100, 64206840, 64206840, 24527100], [0, 0, 0, 0,
    -2630150, -4711208, -2630150], [0, 0, 0, 0, 0, 124943, 124943], [0, 0, 0, 0, 0, 0, -10272]]

theorem Fi5N_nyR1 : posChart (j1Z Fi5N_nyN Fi5N_nyD) [[], [], [0, -1]] [[], [-1, -1]] 1 0 Fi5N_nyR1_p ⟨10, 0, 17⟩ ⟨1, 0, 1⟩ 11 6
    (.r (.c .leaf (.r .leaf .leaf)) (.c .leaf .leaf)) = true := by decide +kernel

def Fi5N_nyR2_p : List (List ℤ) :=
    [[420263251200], [-210131625600, -210131625600], [70043875200, 105065812800, 70043875200], [-17510968800, -35021937600, -35021937600, -17510968800],
    [3502193760, 8755484400, 11673979200, 8755484400, 3502193760], [-673498800, -2020496400, -3277694160, -3277694160, -2020496400, -673498800], [0,
    106423200, 374049000, 530719020, 374049000, 106423200], [0, 0, -26120700, -66506040, -66506040, -26120700], [0, 0, 0, 2598150, 4679208, 2598150], [0,
    0, 0, 0, -124943, -124943], [0, 0, 0, 0, 0, 10272]]

theorem Fi5N_nyR2 : posChart (j2Z Fi5N_nyN Fi5N_nyT Fi5N_nyD) [[], [], [0, -1]] [[], [-1, -1]] 2 1 Fi5N_nyR2_p ⟨10, 0, 17⟩ ⟨1, 0, 1⟩ 10 5
    (.r .leaf (.c .leaf .leaf)) = true := by decide +kernel

def Fi5N_nyR3_p : List (List ℤ) :=
    [[1681053004800], [-840526502400, -840526502400], [420263251200, 420263251200, 420263251200], [-140087750400, -210131625600, -210131625600,
    -140087750400], [35021937600, 70043875200, 105065812800, 70043875200, 35021937600], [-7004387520, -17510968800, -35021937600, -35021937600,
    -17510968800, -7004387520], [1346997600, 4040992800, 9473883120, 12392377920, 9473883120, 4040992800, 1346997600], [0, -212846400, -1331796960,
    -2520685440, -2520685440, -1331796960, -212846400], [0, 0, 164491200, 469761480, 634106700, 469761480, 164491200], [0, 0, 0, -22933500, -61907640,
    -61907640, -22933500], [0, 0, 0, 0, 2662150, 4743208, 2662150], [0, 0, 0, 0, 0, -124943, -124943], [0, 0, 0, 0, 0, 0, 10272]]

theorem Fi5N_nyR3 : posChart (j3Z Fi5N_nyN Fi5N_nyT Fi5N_nyD) [[], [], [0, -1]] [[], [-1, -1]] 0 0 Fi5N_nyR3_p ⟨10, 0, 17⟩ ⟨1, 0, 1⟩ 12 6
    (.r .leaf .leaf) = true := by decide +kernel

def Fi5N_nyA1_p : List (List ℤ) :=
    [[840526502400], [-840526502400], [560351001600], [-280175500800], [112070200320], [-39152730240, 0, 3591993600, 0, -359199360], [10037018160, 0,
    6065738640, 0, -3798054000, 0, 173225520], [-1697137740, 0, -2933614800, 0, -785333160, 0, 441627120, 0, -9516780], [177467880, 0, 513654720, 0,
    476156880, 0, 121221120, 0, -18748920], [-9971508, 0, -39336940, 0, -57632680, 0, -36591480, 0, -7775140, 0, 549092], [249886, 0, 1249430, 0,
    2498860, 0, 2498860, 0, 1249430, 0, 249886], [-10272, 0, -61632, 0, -154080, 0, -205440, 0, -154080, 0, -61632, 0, -10272]]

theorem Fi5N_nyA1 : posChart (j1Z Fi5N_nyN Fi5N_nyD) [[], [], [-1, 0, -1]] [[], [-2]] 1 0 Fi5N_nyA1_p ⟨25, 0, 4⟩ ⟨1, 0, 15⟩ 11 12
    .leaf = true := by decide +kernel

def Fi5N_nyA2_p : List (List ℤ) :=
    [[420263251200, 0, 420263251200], [-420263251200, 0, -420263251200], [245153563200, 0, 210131625600, 0, -35021937600], [-105065812800, 0,
    -70043875200, 0, 35021937600], [36189335520, 0, 17510968800, 0, -17510968800, 0, 1167397920], [-11943378720, 0, -3502193760, 0, 7273787040, 0,
    -1167397920], [1491663420, 0, 2767686480, 0, 1055850120, 0, -224705520, 0, -4532580], [-185253480, 0, -532048320, 0, -484624080, 0, -114117120, 0,
    23712120], [9875508, 0, 38984940, 0, 57184680, 0, 36399480, 0, 7807140, 0, -517092], [-249886, 0, -1249430, 0, -2498860, 0, -2498860, 0, -1249430, 0,
    -249886], [10272, 0, 61632, 0, 154080, 0, 205440, 0, 154080, 0, 61632, 0, 10272]]

theorem Fi5N_nyA2 : posChart (j2Z Fi5N_nyN Fi5N_nyT Fi5N_nyD) [[], [], [-1, 0, -1]] [[], [-2]] 2 0 Fi5N_nyA2_p ⟨25, 0, 4⟩ ⟨1, 0, 15⟩ 10 12
    (.c (.c (.c .leaf .leaf) (.c .leaf .leaf)) (.c .leaf (.c .leaf .leaf))) = true := by decide +kernel

def Fi5N_nyA3_p : List (List ℤ) :=
    [[1681053004800], [-1681053004800], [1260789753600, 0, -420263251200], [-700438752000, 0, 420263251200], [315197438400, 0, -210131625600, 0,
    35021937600], [-119074587840, 0, 70043875200, 0, -35021937600], [42116124960, 0, -24694956000, 0, 18229367520, 0, -1167397920], [-8130657600, 0,
    -8629283520, 0, 322320960, 0, 820946880], [1902612060, 0, 3099543120, 0, 514816200, 0, -658548720, 0, 23566140], [-169682280, 0, -495261120, 0,
    -467689680, 0, -128325120, 0, 13785720], [10067508, 0, 39688940, 0, 58080680, 0, 36783480, 0, 7743140, 0, -581092], [-249886, 0, -1249430, 0,
    -2498860, 0, -2498860, 0, -1249430, 0, -249886], [10272, 0, 61632, 0, 154080, 0, 205440, 0, 154080, 0, 61632, 0, 10272]]

theorem Fi5N_nyA3 : posChart (j3Z Fi5N_nyN Fi5N_nyT Fi5N_nyD) [[], [], [-1, 0, -1]] [[], [-2]] 0 0 Fi5N_nyA3_p ⟨25, 0, 4⟩ ⟨1, 0, 15⟩ 12 12
    (.r .leaf (.c .leaf (.r .leaf (.c .leaf .leaf)))) = true := by decide +kernel

def Fi5N_nyB1_p : List (List ℤ) :=
    [[0, 0, 0, 0, 0, 0, 0, 0, -9516780, 0, 549092, 0, -10272], [840526502400, 0, 0, 0, 0, 0, 173225520, 0, -18748920, 0, 249886], [-840526502400, 0, 0,
    0, -359199360, 0, 441627120, 0, -7775140, 0, -61632], [560351001600, 0, 0, 0, -3798054000, 0, 121221120, 0, 1249430], [-280175500800, 0, 3591993600,
    0, -785333160, 0, -36591480, 0, -154080], [112070200320, 0, 6065738640, 0, 476156880, 0, 2498860], [-39152730240, 0, -2933614800, 0, -57632680, 0,
    -205440], [10037018160, 0, 513654720, 0, 2498860], [-1697137740, 0, -39336940, 0, -154080], [177467880, 0, 1249430], [-9971508, 0, -61632], [249886],
    [-10272]]

theorem Fi5N_nyB1 : posChart (j1Z Fi5N_nyN Fi5N_nyD) [[0, 0, -1], [], [-1]] [[], [-2]] 0 0 Fi5N_nyB1_p ⟨50, 8, 77⟩ ⟨5, 0, 12⟩ 12 12
    (.r .leaf (.c .leaf .leaf)) = true := by decide +kernel

def Fi5N_nyB2_p : List (List ℤ) :=
    [[0, 0, 420263251200, 0, -35021937600, 0, 1167397920, 0, -4532580, 0, -517092, 0, 10272], [0, 0, -420263251200, 0, 35021937600, 0, -1167397920, 0,
    23712120, 0, -249886], [420263251200, 0, 210131625600, 0, -17510968800, 0, -224705520, 0, 7807140, 0, 61632], [-420263251200, 0, -70043875200, 0,
    7273787040, 0, -114117120, 0, -1249430], [245153563200, 0, 17510968800, 0, 1055850120, 0, 36399480, 0, 154080], [-105065812800, 0, -3502193760, 0,
    -484624080, 0, -2498860], [36189335520, 0, 2767686480, 0, 57184680, 0, 205440], [-11943378720, 0, -532048320, 0, -2498860], [1491663420, 0, 38984940,
    0, 154080], [-185253480, 0, -1249430], [9875508, 0, 61632], [-249886], [10272]]

theorem Fi5N_nyB2 : posChart (j2Z Fi5N_nyN Fi5N_nyT Fi5N_nyD) [[0, 0, -1], [], [-1]] [[], [-2]] 0 0 Fi5N_nyB2_p ⟨50, 8, 77⟩ ⟨5, 0, 12⟩ 12 12
    (.r (.c (.c (.r .leaf .leaf) (.r (.c .leaf .leaf) .leaf)) (.c (.r .leaf .leaf) (.r .leaf .leaf))) (.c (.r .leaf .leaf) .leaf)) = true := by decide +kernel

def Fi5N_nyB3_p : List (List ℤ) :=
    [[1681053004800, 0, -420263251200, 0, 35021937600, 0, -1167397920, 0, 23566140, 0, -581092, 0, 10272], [-1681053004800, 0, 420263251200, 0,
    -35021937600, 0, 820946880, 0, 13785720, 0, -249886], [1260789753600, 0, -210131625600, 0, 18229367520, 0, -658548720, 0, 7743140, 0, 61632],
    [-700438752000, 0, 70043875200, 0, 322320960, 0, -128325120, 0, -1249430], [315197438400, 0, -24694956000, 0, 514816200, 0, 36783480, 0, 154080],
    [-119074587840, 0, -8629283520, 0, -467689680, 0, -2498860], [42116124960, 0, 3099543120, 0, 58080680, 0, 205440], [-8130657600, 0, -495261120, 0,
    -2498860], [1902612060, 0, 39688940, 0, 154080], [-169682280, 0, -1249430], [10067508, 0, 61632], [-249886], [10272]]

theorem Fi5N_nyB3 : posChart (j3Z Fi5N_nyN Fi5N_nyT Fi5N_nyD) [[0, 0, -1], [], [-1]] [[], [-2]] 0 0 Fi5N_nyB3_p ⟨50, 8, 77⟩ ⟨5, 0, 12⟩ 12 12
    (.r (.c (.r .leaf .leaf) (.r (.c .leaf (.c .leaf .leaf)) (.c .leaf .leaf))) (.c .leaf (.c .leaf (.r .leaf (.c .leaf (.r .leaf .leaf)))))) = true := by decide +kernel

end Extensisq
