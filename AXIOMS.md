# Axioms of every theorem in the manifest

Generated by `tools/axioms.py` from `#print axioms`. Unless listed, a theorem depends on
`propext, Classical.choice, Quot.sound` and nothing else.

* 631 theorems: `propext, Classical.choice, Quot.sound`
* 25 theorems: `propext, Quot.sound`: `Extensisq.C04_final`, `Extensisq.C05_nonfinite_fails`, `Extensisq.C06_diverges_with_g_one`, `Extensisq.C11_bounds`, `Extensisq.C13_values`, `Extensisq.C28_dense_output_harmless`, `Extensisq.C30_stiffness_detection_harmless`, `Extensisq.C30_disabled`, `Extensisq.C31_counters`, `Extensisq.C31_raises_when_step_would_succeed`, `Extensisq.C54_Fi5N_ignores_argument`, `Extensisq.C55_constructor_accepts`, `Extensisq.C55_odd_rejected`, `Extensisq.C91_unnamed`, `Extensisq.C91_named_errors`, `Extensisq.C96_direction`, `Extensisq.C100_ckdisc_fallback`, `Extensisq.C100_swag_argument_returned`, `Extensisq.C100_fi5n_interpolant1`, `Extensisq.C101_reused_buffer`, `Extensisq.C102_horner`, `Extensisq.C102_cubic`, `Extensisq.C102_piecewise_cubic_empty`, `Extensisq.C102_linear`, `Extensisq.C122_step`
* 1 theorems: `propext`: `Extensisq.C91_list_atol_example`
* 1 theorems: `none`: `Extensisq.C91_scalar_g_example`
