import Verif.Lemmas.StabPoly

/-!
# Certificates for the stability regions

Generated by `/verif/tools/gen_stab.py`, checked here by the kernel. Proof machinery for `Props/StabilityRegion.lean`.
-/

set_option maxRecDepth 1000000

namespace Extensisq

/-- The stability polynomial of `Pr9`, rounded, times 10000000000000000. -/
def Pr9_stabQ : List ℤ :=
    [10000000000000000, 10000000000000000, 5000000000000000, 1666666666666667, 416666666666667, 83333333333333, 13888888888889, 1984126984127,
    248015873016, 27557319224, 2755540326, -200896937, 39443391, 2829568, -493151, -434]

theorem Pr9_inner : innerCheck (stabP Pr9) 10000000000000000 Pr9_stabQ (15 / 2) ⟨50, 0, 207⟩ ⟨10000, 1321, 8679⟩ 1 1000000 31 30
    (.r (.c (.c (.c .leaf (.r .leaf .leaf)) (.r .leaf .leaf)) (.r (.r .leaf .leaf) (.r .leaf .leaf))) (.c (.c (.c (.r .leaf (.c .leaf .leaf)) (.r .leaf
    .leaf)) (.r .leaf .leaf)) (.r .leaf (.c .leaf .leaf)))) = true := by decide +kernel

theorem Pr9_outer : outerCheck (stabP Pr9) 10000000000000000 Pr9_stabQ (15 / 2) ⟨483, 70, 30⟩ ⟨10000, 1321, 8679⟩ (29 / 1000000) 201 1000000 30 28
    (.c (.r (.r .leaf (.c .leaf .leaf)) (.c (.r .leaf (.c .leaf .leaf)) .leaf)) (.r (.r .leaf (.c .leaf .leaf)) (.c .leaf (.r .leaf (.c .leaf .leaf))))) = true := by decide +kernel

end Extensisq
