import Verif.Lemmas.StabPoly

/-!
# Certificates for the stability regions

Generated by `/verif/tools/gen_stab.py`, checked here by the kernel. Proof machinery for `Props/StabilityRegion.lean`.
-/

set_option maxRecDepth 1000000

namespace Extensisq

/-- The stability polynomial of `Me4`, times 144. -/
def Me4_stabQ : List ℤ :=
    [144, 144, 72, 24, 6, 1]

theorem Me4_inner : innerCheck (stabP Me4) 144 Me4_stabQ (20) ⟨500, 0, 1513⟩ ⟨10000, 499, 9501⟩ 0 1 11 10
    (.r (.c (.c (.c (.c .leaf .leaf) .leaf) (.c .leaf (.r .leaf .leaf))) (.r (.c .leaf .leaf) .leaf)) (.c (.c (.c (.r .leaf .leaf) (.r .leaf (.r .leaf
    (.r .leaf (.c .leaf (.r .leaf (.c .leaf .leaf))))))) (.r .leaf (.r .leaf (.c (.r .leaf (.r .leaf (.c (.r .leaf (.c .leaf .leaf)) .leaf))) .leaf))))
    (.r .leaf (.c .leaf .leaf)))) = true := by decide +kernel

theorem Me4_outer : outerCheck (stabP Me4) 144 Me4_stabQ (20) ⟨357, 0, 100⟩ ⟨10000, 499, 9501⟩ (0) 0 1 10 8
    (.r (.r (.r .leaf .leaf) (.c .leaf .leaf)) (.c (.c (.r .leaf (.c (.r .leaf .leaf) .leaf)) (.r .leaf .leaf)) (.r (.c .leaf .leaf) (.c (.r .leaf (.c
    .leaf .leaf)) (.r .leaf (.c .leaf .leaf)))))) = true := by decide +kernel

/-- The stability polynomial of `CK5`, times 2400. -/
def CK5_stabQ : List ℤ :=
    [2400, 2400, 1200, 400, 100, 20, 3]

theorem CK5_inner : innerCheck (stabP CK5) 2400 CK5_stabQ (12 / 5) ⟨100, 0, 333⟩ ⟨5000, 1923, 3077⟩ 0 1 13 12
    (.r (.c (.r (.c .leaf .leaf) .leaf) (.r (.r .leaf .leaf) .leaf)) (.c (.r .leaf .leaf) (.r .leaf .leaf))) = true := by decide +kernel

theorem CK5_outer : outerCheck (stabP CK5) 2400 CK5_stabQ (12 / 5) ⟨777, 0, 200⟩ ⟨5000, 1923, 3077⟩ (0) 0 1 12 10
    (.r (.r (.r .leaf .leaf) (.c .leaf .leaf)) (.r (.c .leaf .leaf) (.c (.r .leaf (.c .leaf .leaf)) (.r .leaf (.c .leaf .leaf))))) = true := by decide +kernel

/-- The stability polynomial of `BS5`, times 12418560. -/
def BS5_stabQ : List ℤ :=
    [12418560, 12418560, 6209280, 2069760, 517440, 103488, 17291, 2421]

theorem BS5_inner : innerCheck (stabP BS5) 12418560 BS5_stabQ (26 / 5) ⟨100, 0, 351⟩ ⟨625, 118, 507⟩ 0 1 15 14
    (.r (.c (.c (.c .leaf .leaf) (.r .leaf .leaf)) (.r (.r .leaf .leaf) .leaf)) (.c (.c (.c .leaf .leaf) (.r .leaf .leaf)) (.r .leaf (.c .leaf .leaf)))) = true := by decide +kernel

theorem BS5_outer : outerCheck (stabP BS5) 12418560 BS5_stabQ (26 / 5) ⟨819, 0, 200⟩ ⟨625, 118, 507⟩ (0) 0 1 14 12
    (.r (.r (.r .leaf .leaf) (.c .leaf .leaf)) (.c (.r (.c .leaf .leaf) (.c (.r .leaf (.c .leaf .leaf)) .leaf)) (.r .leaf (.c .leaf .leaf)))) = true := by decide +kernel

/-- The stability polynomial of `Ts5`, rounded, times 10000000000000000. -/
def Ts5_stabQ : List ℤ :=
    [10000000000000000, 9999999999999998, 4999999999999998, 1666666666666677, 416666666666666, 83333333333333, 14322113248073]

theorem Ts5_inner : innerCheck (stabP Ts5) 10000000000000000 Ts5_stabQ (3) ⟨20, 0, 63⟩ ⟨5000, 1581, 3419⟩ 1 1000000 13 12
    (.r (.c (.c (.r .leaf .leaf) (.r .leaf .leaf)) (.r (.r .leaf .leaf) .leaf)) (.c (.c (.r .leaf .leaf) .leaf) (.r .leaf .leaf))) = true := by decide +kernel

theorem Ts5_outer : outerCheck (stabP Ts5) 10000000000000000 Ts5_stabQ (3) ⟨147, 21, 19⟩ ⟨5000, 1581, 3419⟩ (1 / 1000000) 7 1000000 12 10
    (.r (.c .leaf .leaf) (.c (.c .leaf .leaf) (.r .leaf (.c .leaf .leaf)))) = true := by decide +kernel

/-- The stability polynomial of `CFMR7osc`, times 362880. -/
def CFMR7osc_stabQ : List ℤ :=
    [362880, 362880, 181440, 60480, 15120, 3024, 504, 72, 9, 1]

theorem CFMR7osc_inner : innerCheck (stabP CFMR7osc) 362880 CFMR7osc_stabQ (40) ⟨100, 0, 423⟩ ⟨10000, 249, 9751⟩ 0 1 19 18
    (.r (.c (.c (.c (.c .leaf .leaf) (.c .leaf .leaf)) (.c (.r .leaf .leaf) (.r .leaf .leaf))) (.r (.c (.r .leaf .leaf) (.r .leaf .leaf)) (.c .leaf
    .leaf))) (.c (.c (.c (.r .leaf (.c .leaf .leaf)) (.r .leaf .leaf)) (.r .leaf (.c .leaf .leaf))) (.r .leaf (.c .leaf .leaf)))) = true := by decide +kernel

theorem CFMR7osc_outer : outerCheck (stabP CFMR7osc) 362880 CFMR7osc_stabQ (40) ⟨987, 0, 200⟩ ⟨10000, 249, 9751⟩ (0) 0 1 18 16
    (.r (.r (.r .leaf .leaf) (.c (.c .leaf .leaf) .leaf)) (.c (.r (.c .leaf .leaf) (.c (.r .leaf (.c (.c .leaf .leaf) .leaf)) (.r .leaf (.c .leaf
    .leaf)))) (.r .leaf (.c .leaf .leaf)))) = true := by decide +kernel

end Extensisq
