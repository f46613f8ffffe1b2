import Verif.Model.Fl

/-! # Lemmas on floating point special values -/

namespace Verif.Fl

theorem pow_fin (r q : ℝ) : pow (.fin r) q = open Classical in
    if q = 0 then .fin 1 else if r = 0 then (if 0 < q then .fin 0 else .pinf)
    else if r < 0 ∧ ¬ ∃ k : ℤ, q = k then .nan else .fin (r ^ q) := rfl

theorem pow_fin_two (r : ℝ) : pow (.fin r) 2 = .fin (r ^ 2) := by
  rw [pow_fin, if_neg (by norm_num)]
  split_ifs with h3 h4 h5
  · rw [h3]; norm_num
  · norm_num at h4
  · exfalso
    exact h5.2 ⟨2, by norm_num⟩
  · congr 1
    exact Real.rpow_two _

theorem sub_fin (a b : ℝ) : sub (.fin a) (.fin b) = .fin (a - b) := by
  simp [sub, add, neg, sub_eq_add_neg]

theorem div_fin (a : ℝ) {b : ℝ} (hb : b ≠ 0) : div (.fin a) (.fin b) = .fin (a / b) := by
  simp [div, hb]

end Verif.Fl
