import Verif.Lemmas.StabPoly

/-!
# Certificates for the stability regions

Generated by `/verif/tools/gen_stab.py`, checked here by the kernel. Proof machinery for `Props/StabilityRegion.lean`.
-/

set_option maxRecDepth 1000000

namespace Extensisq

/-- The stability polynomial of `Pr7`, times 2890137600. -/
def Pr7_stabQ : List ℤ :=
    [2890137600, 2890137600, 1445068800, 481689600, 120422400, 24084480, 4014080, 573440, 63680, -2316, 387]

theorem Pr7_inner : innerCheck (stabP Pr7) 2890137600 Pr7_stabQ (15 / 2) ⟨100, 0, 369⟩ ⟨10000, 1321, 8679⟩ 0 1 21 20
    (.r (.c (.c (.c .leaf .leaf) (.r .leaf .leaf)) (.r (.c .leaf (.r .leaf .leaf)) .leaf)) (.c (.c (.c .leaf .leaf) (.r .leaf .leaf)) (.r .leaf (.c .leaf
    .leaf)))) = true := by decide +kernel

theorem Pr7_outer : outerCheck (stabP Pr7) 2890137600 Pr7_stabQ (15 / 2) ⟨861, 0, 200⟩ ⟨10000, 1321, 8679⟩ (0) 0 1 20 18
    (.r (.r (.r .leaf .leaf) (.r .leaf .leaf)) (.r (.c .leaf .leaf) (.c (.r (.c .leaf .leaf) (.c (.c (.r .leaf (.c .leaf .leaf)) .leaf) .leaf)) (.r .leaf
    (.c (.r .leaf (.c .leaf .leaf)) (.r .leaf (.c .leaf .leaf))))))) = true := by decide +kernel

/-- The stability polynomial of `Pr8`, rounded, times 10000000000000000. -/
def Pr8_stabQ : List ℤ :=
    [10000000000000000, 10000000000000000, 5000000000000000, 1666666666666667, 416666666666667, 83333333333333, 13888888888889, 1984126984127,
    248015873016, 34818206754, 1264573416, 105672984, 29617081]

theorem Pr8_inner : innerCheck (stabP Pr8) 10000000000000000 Pr8_stabQ (6) ⟨20, 0, 81⟩ ⟨10000, 1643, 8357⟩ 1 1000000 25 24
    (.r (.c (.c (.c .leaf (.r .leaf .leaf)) (.r .leaf .leaf)) (.r (.r .leaf .leaf) .leaf)) (.c (.c (.c (.r .leaf .leaf) (.r .leaf .leaf)) (.r .leaf
    .leaf)) (.r .leaf (.c .leaf .leaf)))) = true := by decide +kernel

theorem Pr8_outer : outerCheck (stabP Pr8) 10000000000000000 Pr8_stabQ (6) ⟨189, 28, 12⟩ ⟨10000, 1643, 8357⟩ (1 / 1000000) 7 1000000 24 22
    (.c (.r (.c .leaf .leaf) (.c .leaf .leaf)) (.r (.c .leaf .leaf) (.c .leaf (.r .leaf (.c .leaf .leaf))))) = true := by decide +kernel

end Extensisq
