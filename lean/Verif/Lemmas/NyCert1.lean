import Verif.Lemmas.NyStabPoly

/-!
# Certificates for the stability regions of the Nystrom methods

Generated by `/verif/tools/gen_nystab.py`, checked here by the kernel. Proof machinery for `Props/NystromStability.lean`.
-/

set_option maxRecDepth 1000000

namespace Extensisq

/-- The trace and the determinant for `Fi4N`, times `Fi4N_nyN`. -/
def Fi4N_nyN : ℕ := 23328000

def Fi4N_nyT : List (List ℤ) :=
    [[46656000, 23328000, 11664000, 3888000, 972000, 243000], [23328000, 11664000, 3888000, 1009800, 126900], [1944000, 966600, 252660, 26490], [63180,
    24150, 2763], [801, 144], [3]]

def Fi4N_nyD : List (List ℤ) :=
    [[23328000, 23328000, 11664000, 3888000, 972000, 243000], [0, 0, 0, 37800, -116100], [0, -5400, -28140, 21090], [-1620, 3690, 123], [-69, 61], [-1]]

theorem Fi4N_nyTr : eqQ (nyTr Fi4N varA varB) Fi4N_nyN Fi4N_nyT = true := by decide +kernel

theorem Fi4N_nyDet : eqQ (nyDet Fi4N varA varB) Fi4N_nyN Fi4N_nyD = true := by decide +kernel

def Fi4N_nyR1_p : List (List ℤ) :=
    [[23328000, 23328000], [-11664000, -23328000, -11664000], [3888000, 11664000, 11664000, 3888000], [-972000, -3888000, -5832000, -3888000, -972000],
    [243000, 1177200, 2311200, 2311200, 1177200, 243000], [0, -116100, -436260, -641940, -436260, -116100], [0, 0, 21090, 59580, 59580, 21090], [0, 0, 0,
    123, 315, 123], [0, 0, 0, 0, 61, 61], [0, 0, 0, 0, 0, -1]]

theorem Fi4N_nyR1 : posChart (j1Z Fi4N_nyN Fi4N_nyD) [[], [], [0, -1]] [[], [-1, -1]] 1 0 Fi4N_nyR1_p ⟨40, 0, 51⟩ ⟨1, 0, 1⟩ 9 5
    (.r (.c .leaf .leaf) .leaf) = true := by decide +kernel

def Fi4N_nyR2_p : List (List ℤ) :=
    [[23328000], [-11664000, -11664000], [3888000, 5832000, 3888000], [-972000, -1944000, -1944000, -972000], [243000, 691200, 961200, 691200, 243000],
    [0, 5400, -4260, -4260, 5400], [0, 0, 2640, 4410, 2640], [0, 0, 0, 83, 83], [0, 0, 0, 0, 4]]

theorem Fi4N_nyR2 : posChart (j2Z Fi4N_nyN Fi4N_nyT Fi4N_nyD) [[], [], [0, -1]] [[], [-1, -1]] 2 1 Fi4N_nyR2_p ⟨40, 0, 51⟩ ⟨1, 0, 1⟩ 8 4
    (.r .leaf .leaf) = true := by decide +kernel

def Fi4N_nyR3_p : List (List ℤ) :=
    [[93312000], [-46656000, -46656000], [23328000, 23328000, 23328000], [-7776000, -11664000, -11664000, -7776000], [1944000, 3888000, 5832000, 3888000,
    1944000], [-486000, -1382400, -2678400, -2678400, -1382400, -486000], [0, -10800, 181320, 322680, 181320, -10800], [0, 0, -47580, -114900, -114900,
    -47580], [0, 0, 0, -2886, -5040, -2886], [0, 0, 0, 0, -205, -205], [0, 0, 0, 0, 0, -2]]

theorem Fi4N_nyR3 : posChart (j3Z Fi4N_nyN Fi4N_nyT Fi4N_nyD) [[], [], [0, -1]] [[], [-1, -1]] 0 0 Fi4N_nyR3_p ⟨40, 0, 51⟩ ⟨1, 0, 1⟩ 10 5
    (.r .leaf .leaf) = true := by decide +kernel

def Fi4N_nyA1_p : List (List ℤ) :=
    [[46656000], [-46656000], [31104000], [-15552000], [7462800, 0, -324000, 0, -10800], [-1746660, 0, -1637340, 0, 107700, 0, -1620], [161340, 0,
    315300, 0, 146580, 0, -7380], [561, 0, 1752, 0, 1890, 0, 768, 0, 69], [122, 0, 488, 0, 732, 0, 488, 0, 122], [-1, 0, -5, 0, -10, 0, -10, 0, -5, 0,
    -1]]

theorem Fi4N_nyA1 : posChart (j1Z Fi4N_nyN Fi4N_nyD) [[], [], [-1, 0, -1]] [[], [-2]] 1 0 Fi4N_nyA1_p ⟨1000, 0, 89⟩ ⟨1, 0, 40⟩ 9 10
    (.r .leaf (.r .leaf (.c .leaf .leaf))) = true := by decide +kernel

def Fi4N_nyA2_p : List (List ℤ) :=
    [[23328000, 0, 23328000], [-23328000, 0, -23328000], [13608000, 0, 11664000, 0, -1944000], [-5832000, 0, -3888000, 0, 1944000], [2829600, 0, 1836000,
    0, -928800, 0, 64800], [2280, 0, -36360, 0, -79560, 0, -40920], [9690, 0, 28200, 0, 26460, 0, 7080, 0, -870], [166, 0, 664, 0, 996, 0, 664, 0, 166],
    [4, 0, 20, 0, 40, 0, 40, 0, 20, 0, 4]]

theorem Fi4N_nyA2 : posChart (j2Z Fi4N_nyN Fi4N_nyT Fi4N_nyD) [[], [], [-1, 0, -1]] [[], [-2]] 2 0 Fi4N_nyA2_p ⟨1000, 0, 89⟩ ⟨1, 0, 40⟩ 8 10
    (.c (.c (.c (.c .leaf .leaf) .leaf) (.c .leaf .leaf)) (.c (.c .leaf .leaf) (.r .leaf (.c .leaf .leaf)))) = true := by decide +kernel

def Fi4N_nyA3_p : List (List ℤ) :=
    [[93312000], [-93312000], [69984000, 0, -23328000], [-38880000, 0, 23328000], [17496000, 0, -11664000, 0, 1944000], [-9093600, 0, 4536000, 0,
    -1922400], [663720, 0, 1438680, 0, 713400, 0, -61560], [-324960, 0, -594240, 0, -213600, 0, 55680], [-10812, 0, -31704, 0, -30240, 0, -8616, 0, 732],
    [-410, 0, -1640, 0, -2460, 0, -1640, 0, -410], [-2, 0, -10, 0, -20, 0, -20, 0, -10, 0, -2]]

theorem Fi4N_nyA3 : posChart (j3Z Fi4N_nyN Fi4N_nyT Fi4N_nyD) [[], [], [-1, 0, -1]] [[], [-2]] 0 0 Fi4N_nyA3_p ⟨1000, 0, 89⟩ ⟨1, 0, 40⟩ 10 10
    (.r .leaf (.c .leaf (.r (.c .leaf (.r .leaf (.c .leaf .leaf))) (.c (.c .leaf (.r .leaf .leaf)) (.r (.c (.r .leaf .leaf) (.r (.c .leaf (.r .leaf
    .leaf)) (.c (.r .leaf (.c .leaf .leaf)) (.r (.c .leaf (.r .leaf .leaf)) (.c (.r .leaf .leaf) (.r (.c .leaf .leaf) (.c .leaf (.r .leaf (.c .leaf
    .leaf))))))))) (.c (.c (.r .leaf (.c .leaf .leaf)) (.r (.c .leaf (.r .leaf .leaf)) (.c (.r .leaf (.c .leaf .leaf)) (.r (.c .leaf .leaf) (.c (.r .leaf
    .leaf) (.r .leaf (.c .leaf .leaf))))))) (.r (.c (.r (.c .leaf (.r .leaf .leaf)) (.c (.c .leaf .leaf) (.r (.c .leaf .leaf) (.c .leaf (.c .leaf (.r
    .leaf .leaf)))))) (.r (.c (.r (.c .leaf .leaf) (.c .leaf (.r .leaf (.c .leaf .leaf)))) (.r (.c (.r .leaf (.c .leaf .leaf)) (.r (.c .leaf (.r .leaf
    .leaf)) (.c (.r .leaf .leaf) (.r .leaf (.c .leaf .leaf))))) (.c (.r (.c .leaf (.r .leaf .leaf)) (.c (.r .leaf .leaf) (.r .leaf (.c .leaf .leaf))))
    (.r (.c (.r .leaf (.c .leaf .leaf)) (.r (.c .leaf .leaf) .leaf)) (.c (.r .leaf .leaf) .leaf))))) (.c (.r (.c (.r .leaf (.c .leaf .leaf)) (.r (.c
    .leaf (.r .leaf .leaf)) (.c (.r .leaf .leaf) (.r .leaf .leaf)))) (.c (.r (.c .leaf (.r .leaf .leaf)) (.c (.c .leaf .leaf) (.r .leaf .leaf))) (.r (.c
    (.r .leaf .leaf) (.r .leaf .leaf)) (.c (.r .leaf .leaf) .leaf)))) (.r (.c (.r (.c (.r .leaf .leaf) (.r .leaf .leaf)) (.c (.r .leaf .leaf) .leaf))
    .leaf) .leaf)))) (.c (.c (.r (.c (.r .leaf .leaf) (.r .leaf (.c .leaf (.r .leaf .leaf)))) (.c (.r (.c .leaf (.r .leaf .leaf)) (.c (.r .leaf .leaf)
    (.r .leaf (.c .leaf .leaf)))) (.r (.c (.r .leaf .leaf) (.r .leaf (.c .leaf .leaf))) (.c (.r (.c .leaf .leaf) (.c .leaf .leaf)) (.r (.c .leaf .leaf)
    .leaf))))) (.r (.c (.r (.c .leaf (.r .leaf .leaf)) (.c (.r .leaf (.c .leaf .leaf)) (.r (.c .leaf .leaf) (.c .leaf .leaf)))) (.r (.c (.r .leaf (.c
    .leaf .leaf)) (.r (.c .leaf .leaf) (.c .leaf .leaf))) (.c (.r (.c .leaf .leaf) .leaf) (.r .leaf .leaf)))) (.c (.r (.c (.r (.c .leaf .leaf) (.c .leaf
    .leaf)) (.r .leaf .leaf)) .leaf) .leaf))) (.c (.r (.c (.r (.c (.r (.c .leaf .leaf) (.c .leaf .leaf)) (.r (.c .leaf .leaf) .leaf)) .leaf) .leaf)
    .leaf) .leaf))))))))) = true := by decide +kernel

def Fi4N_nyB1_p : List (List ℤ) :=
    [[0, 0, 0, 0, 0, 0, -1620, 0, 69, 0, -1], [46656000, 0, 0, 0, -10800, 0, -7380, 0, 122], [-46656000, 0, 0, 0, 107700, 0, 768, 0, -5], [31104000, 0,
    -324000, 0, 146580, 0, 488], [-15552000, 0, -1637340, 0, 1890, 0, -10], [7462800, 0, 315300, 0, 732], [-1746660, 0, 1752, 0, -10], [161340, 0, 488],
    [561, 0, -5], [122], [-1]]

theorem Fi4N_nyB1 : posChart (j1Z Fi4N_nyN Fi4N_nyD) [[0, 0, -1], [], [-1]] [[], [-2]] 0 0 Fi4N_nyB1_p ⟨1000, 89, 1186⟩ ⟨25, 0, 89⟩ 10 10
    (.r (.r (.r (.c .leaf .leaf) .leaf) .leaf) (.c .leaf .leaf)) = true := by decide +kernel

def Fi4N_nyB2_p : List (List ℤ) :=
    [[0, 0, 23328000, 0, -1944000, 0, 64800, 0, -870, 0, 4], [0, 0, -23328000, 0, 1944000, 0, -40920, 0, 166], [23328000, 0, 11664000, 0, -928800, 0,
    7080, 0, 20], [-23328000, 0, -3888000, 0, -79560, 0, 664], [13608000, 0, 1836000, 0, 26460, 0, 40], [-5832000, 0, -36360, 0, 996], [2829600, 0,
    28200, 0, 40], [2280, 0, 664], [9690, 0, 20], [166], [4]]

theorem Fi4N_nyB2 : posChart (j2Z Fi4N_nyN Fi4N_nyT Fi4N_nyD) [[0, 0, -1], [], [-1]] [[], [-2]] 0 0 Fi4N_nyB2_p ⟨1000, 89, 1186⟩ ⟨25, 0, 89⟩ 10 10
    (.c (.r (.c (.c (.r (.c .leaf .leaf) .leaf) (.r .leaf .leaf)) (.c (.r .leaf .leaf) .leaf)) (.c .leaf .leaf)) (.r (.c .leaf .leaf) (.c .leaf (.r .leaf
    (.c .leaf (.r .leaf .leaf)))))) = true := by decide +kernel

def Fi4N_nyB3_p : List (List ℤ) :=
    [[93312000, 0, -23328000, 0, 1944000, 0, -61560, 0, 732, 0, -2], [-93312000, 0, 23328000, 0, -1922400, 0, 55680, 0, -410], [69984000, 0, -11664000,
    0, 713400, 0, -8616, 0, -10], [-38880000, 0, 4536000, 0, -213600, 0, -1640], [17496000, 0, 1438680, 0, -30240, 0, -20], [-9093600, 0, -594240, 0,
    -2460], [663720, 0, -31704, 0, -20], [-324960, 0, -1640], [-10812, 0, -10], [-410], [-2]]

theorem Fi4N_nyB3 : posChart (j3Z Fi4N_nyN Fi4N_nyT Fi4N_nyD) [[0, 0, -1], [], [-1]] [[], [-2]] 0 0 Fi4N_nyB3_p ⟨1000, 89, 1186⟩ ⟨25, 0, 89⟩ 10 10
    (.c (.r (.c .leaf (.r .leaf .leaf)) (.c .leaf .leaf)) (.r (.c (.c (.r .leaf .leaf) (.r (.c .leaf .leaf) .leaf)) (.c (.r (.c (.c .leaf .leaf) (.c
    .leaf (.r (.c .leaf .leaf) .leaf))) (.c .leaf .leaf)) (.r (.c (.r (.c (.r (.c (.r (.c .leaf .leaf) .leaf) .leaf) .leaf) .leaf) .leaf) .leaf) .leaf)))
    (.c (.c .leaf .leaf) (.c .leaf .leaf)))) = true := by decide +kernel

end Extensisq
