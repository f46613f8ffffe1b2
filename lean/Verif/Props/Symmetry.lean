import Verif.Props.Unique
import Verif.Props.Rings

/-!
# Turning and mirroring the wavefront (C76)
-/

namespace Verif.Props

open Verif Verif.Np Verif.Zernike Verif.Aperture Verif.Actuator Finset

/-! ## The circle polynomials at a turned point -/

theorem ang_add (l : ℤ) (t g : ℝ) :
    ang l (t + g) = ang l t * Real.cos (l * g) - ang (-l) t * Real.sin (l * g) := by
  unfold ang
  rcases lt_trichotomy l 0 with h | h | h
  · rw [if_pos h, if_pos h, if_neg (by omega), abs_of_neg h, abs_of_pos (by omega : 0 < -l)]
    push_cast
    rw [mul_add, Real.sin_add, neg_mul (l : ℝ) g, Real.cos_neg, Real.sin_neg]
    ring
  · subst h; simp
  · rw [if_neg (by omega), if_neg (by omega), if_pos (by omega), abs_of_pos h,
      abs_of_neg (by omega : -l < 0)]
    push_cast
    rw [neg_neg, mul_add, Real.cos_add]

theorem ang_period (l k : ℤ) (t : ℝ) : ang l (t + k * (2 * Real.pi)) = ang l t := by
  unfold ang
  have : ((|l| : ℤ) : ℝ) * (t + k * (2 * Real.pi)) = (|l| : ℤ) * t + ((|l| * k : ℤ) : ℝ) * (2 * Real.pi) := by
    push_cast; ring
  rw [this, Real.sin_add_int_mul_two_pi, Real.cos_add_int_mul_two_pi]

theorem Rsum_centre (a b : ℕ) (h : b < a) : Rsum a b 0 = 0 := by
  unfold Rsum
  refine Finset.sum_eq_zero fun s hs => ?_
  have : s ≤ b := by simpa [Nat.lt_succ_iff] using hs
  rw [zero_pow (by omega)]
  simp

/-- The common radial factor of the polynomials of one order and opposite angular frequencies. -/
theorem Uv_pair (i k : ℕ) (hk : k ≤ i) :
    ∃ a b : ℕ, b ≤ a ∧ ((a - b : ℕ) : ℤ) = |(-(i : ℤ) + 2 * (k : ℤ))| ∧ ∀ rho theta,
      Uv i (-(i : ℤ) + 2 * (k : ℤ)) rho theta = Rsum a b rho * ang (-(i : ℤ) + 2 * (k : ℤ)) theta ∧
      Uv i (-(i : ℤ) + 2 * ((i - k : ℕ) : ℤ)) rho theta =
        Rsum a b rho * ang (-(-(i : ℤ) + 2 * (k : ℤ))) theta := by
  obtain ⟨a, b, h1, h2, h3, h4⟩ := U_value i _ (row_allowed i k hk)
  obtain ⟨a', b', h1', h2', h3', h4'⟩ := U_value i _ (row_allowed i (i - k) (by omega))
  have e : (-(i : ℤ) + 2 * ((i - k : ℕ) : ℤ)) = -(-(i : ℤ) + 2 * (k : ℤ)) := by omega
  rw [e] at h3' h4'
  rw [abs_neg, ← h3] at h3'
  have ha : a' = a := by omega
  have hb : b' = b := by omega
  subst ha hb
  refine ⟨a', b', h1, h3, fun rho theta => ⟨Uv_of_ok (h4 rho theta), ?_⟩⟩
  rw [e]
  exact Uv_of_ok (h4' rho theta)

theorem polar_turn (x y g : ℝ) (h : ¬ (x = 0 ∧ y = 0)) :
    ∃ k : ℤ, arctan2 (x * Real.sin g + y * Real.cos g) (x * Real.cos g - y * Real.sin g) =
      arctan2 y x + g + k * (2 * Real.pi) := by
  set z : ℂ := ⟨x, y⟩ with hz
  set w : ℂ := ⟨x * Real.cos g - y * Real.sin g, x * Real.sin g + y * Real.cos g⟩ with hw
  have hz0 : z ≠ 0 := by
    intro h0
    apply h
    exact ⟨congrArg Complex.re h0, congrArg Complex.im h0⟩
  have hwz : w = z * Complex.exp ((g : ℂ) * Complex.I) := by
    rw [Complex.exp_mul_I, ← Complex.ofReal_cos, ← Complex.ofReal_sin]
    apply Complex.ext
    · simp [hw, hz, -Complex.ofReal_cos, -Complex.ofReal_sin]
    · simp [hw, hz, -Complex.ofReal_cos, -Complex.ofReal_sin]
  have hn : ‖w‖ = ‖z‖ := by
    rw [hwz, norm_mul, Complex.norm_exp_ofReal_mul_I, mul_one]
  have e1 := Complex.norm_mul_exp_arg_mul_I w
  have e2 := Complex.norm_mul_exp_arg_mul_I z
  have hnz : (‖z‖ : ℂ) ≠ 0 := by
    exact_mod_cast (norm_ne_zero_iff.2 hz0)
  have : Complex.exp (w.arg * Complex.I) = Complex.exp (((z.arg + g : ℝ) : ℂ) * Complex.I) := by
    apply mul_left_cancel₀ hnz
    conv_lhs => rw [← hn, e1, hwz, ← e2]
    rw [mul_assoc, ← Complex.exp_add]
    push_cast
    congr 2
    ring
  obtain ⟨k, hk⟩ := Complex.exp_eq_exp_iff_exists_int.1 this
  refine ⟨k, ?_⟩
  have hI : ((w.arg : ℂ)) = ((z.arg + g + k * (2 * Real.pi) : ℝ) : ℂ) := by
    have h2 : (w.arg : ℂ) * Complex.I = ((z.arg + g + k * (2 * Real.pi) : ℝ) : ℂ) * Complex.I := by
      rw [hk]; push_cast; ring
    exact mul_right_cancel₀ Complex.I_ne_zero h2
  exact_mod_cast hI

theorem radius_turn (x y g : ℝ) :
    (x * Real.cos g - y * Real.sin g) ^ 2 + (x * Real.sin g + y * Real.cos g) ^ 2 = x ^ 2 + y ^ 2 := by
  have := Real.sin_sq_add_cos_sq g
  nlinarith [this]

/-- `U` at a turned point. -/
theorem Uv_turn (i k : ℕ) (hk : k ≤ i) (pr x y g : ℝ) :
    Uv i (-(i : ℤ) + 2 * (k : ℤ))
        ((cart2pol (x * Real.cos g - y * Real.sin g) (x * Real.sin g + y * Real.cos g)).1 / pr)
        (cart2pol (x * Real.cos g - y * Real.sin g) (x * Real.sin g + y * Real.cos g)).2 =
      Uv i (-(i : ℤ) + 2 * (k : ℤ)) ((cart2pol x y).1 / pr) (cart2pol x y).2 *
        Real.cos ((2 * k - i : ℝ) * g) -
      Uv i (-(i : ℤ) + 2 * ((i - k : ℕ) : ℤ)) ((cart2pol x y).1 / pr) (cart2pol x y).2 *
        Real.sin ((2 * k - i : ℝ) * g) := by
  obtain ⟨a, b, hba, hab, hU⟩ := Uv_pair i k hk
  have hl : ((-(i : ℤ) + 2 * (k : ℤ) : ℤ) : ℝ) = 2 * k - i := by push_cast; ring
  rw [(hU _ _).1, (hU _ _).1, (hU _ _).2]
  simp only [cart2pol]
  rw [radius_turn]
  by_cases h : x = 0 ∧ y = 0
  · obtain ⟨rfl, rfl⟩ := h
    simp only [zero_mul, sub_zero, add_zero, ne_eq, OfNat.ofNat_ne_zero, not_false_eq_true, zero_pow,
      Real.sqrt_zero, zero_div]
    by_cases hl0 : (-(i : ℤ) + 2 * (k : ℤ) : ℤ) = 0
    · have : (2 * k - i : ℝ) = 0 := by rw [← hl, hl0]; simp
      rw [this, hl0]
      simp [ang]
    · have : b < a := by
        rcases Nat.lt_or_ge b a with h | h
        · exact h
        · exfalso
          have : a = b := le_antisymm h hba
          subst this
          rw [Nat.sub_self, Nat.cast_zero] at hab
          exact hl0 (abs_eq_zero.1 hab.symm)
      rw [Rsum_centre a b this]
      simp
  · obtain ⟨m, hm⟩ := polar_turn x y g h
    rw [hm, ang_period, ang_add, hl]
    ring

/-- `U` at a mirrored point. -/
theorem Uv_mirror (i k : ℕ) (hk : k ≤ i) (pr x y : ℝ) :
    Uv i (-(i : ℤ) + 2 * (k : ℤ)) ((cart2pol x (-y)).1 / pr) (cart2pol x (-y)).2 =
      (if 2 * k < i then -1 else 1) *
        Uv i (-(i : ℤ) + 2 * (k : ℤ)) ((cart2pol x y).1 / pr) (cart2pol x y).2 := by
  obtain ⟨a, b, hba, hab, hU⟩ := Uv_pair i k hk
  rw [(hU _ _).1, (hU _ _).1]
  simp only [cart2pol, neg_sq]
  have harg : ang (-(i : ℤ) + 2 * (k : ℤ)) (arctan2 (-y) x) =
      ang (-(i : ℤ) + 2 * (k : ℤ)) (-arctan2 y x) := by
    have hc : (⟨x, -y⟩ : ℂ) = (starRingEnd ℂ) ⟨x, y⟩ := by
      apply Complex.ext <;> simp
    unfold arctan2
    rw [hc, Complex.arg_conj]
    split_ifs with h
    · rw [h]
      have := ang_period (-(i : ℤ) + 2 * (k : ℤ)) 1 (-Real.pi)
      rw [← this]
      congr 1
      push_cast
      ring
    · rfl
  rw [harg]
  unfold ang
  rw [mul_neg, Real.sin_neg, Real.cos_neg]
  by_cases h : 2 * k < i
  · rw [if_pos h, if_pos (by omega), if_pos (by omega)]; ring
  · rw [if_neg h, if_neg (by omega), if_neg (by omega)]; ring

/-! ## C76 -/

/-- The coefficients `K'` are those of the wavefront `K` turned by `g`: within each order the
coefficients of angular frequency `l = 2 k - n` and `-l` are turned by `l g`. -/
def Spec.Turned (g : ℝ) (K K' : List ℝ) : Prop :=
  K'.length = K.length ∧ ∀ n k, k ≤ n → Spec.place n n < K.length →
    K'.getD (Spec.place n k) 0 =
      K.getD (Spec.place n k) 0 * Real.cos ((2 * k - n : ℝ) * g) +
        K.getD (Spec.place n (n - k)) 0 * Real.sin ((2 * k - n : ℝ) * g)

/-- The coefficients `K'` are those of the wavefront `K` mirrored in the x axis: the sine terms
(negative angular frequency) change sign. -/
def Spec.Mirrored (K K' : List ℝ) : Prop :=
  K'.length = K.length ∧ ∀ n k, k ≤ n → Spec.place n n < K.length →
    K'.getD (Spec.place n k) 0 = (if 2 * k < n then -1 else 1) * K.getD (Spec.place n k) 0

theorem place_lt (n m : ℕ) (h : m ≤ n) : Spec.place m m < tri (n + 1) := by
  have h1 := tri_mono (show m + 1 ≤ n + 1 by omega)
  rw [tri_succ] at h1
  show tri m + m < _
  omega

theorem wfVal_turn (n : ℕ) (K K' : List ℝ) (g : ℝ) (hK : K.length = tri (n + 1))
    (h : Spec.Turned g K K') (pr x y : ℝ) :
    wfVal n K' ((cart2pol x y).1 / pr) (cart2pol x y).2 =
      wfVal n K ((cart2pol (x * Real.cos g - y * Real.sin g) (x * Real.sin g + y * Real.cos g)).1 / pr)
        (cart2pol (x * Real.cos g - y * Real.sin g) (x * Real.sin g + y * Real.cos g)).2 := by
  unfold wfVal
  refine Finset.sum_congr rfl fun i hi => ?_
  have hi' : i ≤ n := by simpa [Nat.lt_succ_iff] using hi
  have hp : Spec.place i i < K.length := by rw [hK]; exact place_lt n i hi'
  set V : ℕ → ℝ := fun k => Uv i (-(i : ℤ) + 2 * (k : ℤ)) ((cart2pol x y).1 / pr) (cart2pol x y).2
    with hV
  have e1 : ∀ k ∈ range (i + 1), K.getD (tri i + k) 0 * Uv i (-(i : ℤ) + 2 * (k : ℤ))
        ((cart2pol (x * Real.cos g - y * Real.sin g) (x * Real.sin g + y * Real.cos g)).1 / pr)
        (cart2pol (x * Real.cos g - y * Real.sin g) (x * Real.sin g + y * Real.cos g)).2 =
      K.getD (tri i + k) 0 * V k * Real.cos ((2 * k - i : ℝ) * g) -
        K.getD (tri i + k) 0 * V (i - k) * Real.sin ((2 * k - i : ℝ) * g) := by
    intro k hk
    rw [Uv_turn i k (by simpa [Nat.lt_succ_iff] using hk)]
    simp only [hV]
    ring
  have e2 : ∀ k ∈ range (i + 1), K'.getD (tri i + k) 0 *
        Uv i (-(i : ℤ) + 2 * (k : ℤ)) ((cart2pol x y).1 / pr) (cart2pol x y).2 =
      K.getD (tri i + k) 0 * V k * Real.cos ((2 * k - i : ℝ) * g) +
        K.getD (tri i + (i - k)) 0 * V k * Real.sin ((2 * k - i : ℝ) * g) := by
    intro k hk
    have := h.2 i k (by simpa [Nat.lt_succ_iff] using hk) hp
    simp only [Spec.place] at this
    show K'.getD (i * (i + 1) / 2 + k) 0 * _ = K.getD (i * (i + 1) / 2 + k) 0 * _ * _ +
      K.getD (i * (i + 1) / 2 + (i - k)) 0 * _ * _
    rw [this]
    simp only [hV]
    ring
  rw [Finset.sum_congr rfl e1, Finset.sum_congr rfl e2, Finset.sum_add_distrib,
    Finset.sum_sub_distrib, sub_eq_add_neg]
  congr 1
  rw [← Finset.sum_neg_distrib,
    ← Finset.sum_range_reflect (fun k => K.getD (tri i + (i - k)) 0 * V k * Real.sin ((2 * k - i : ℝ) * g))]
  refine Finset.sum_congr rfl fun k hk => ?_
  have hk' : k ≤ i := by simpa [Nat.lt_succ_iff] using hk
  have e3 : i + 1 - 1 - k = i - k := by omega
  have e4 : i - (i - k) = k := by omega
  simp only [e3, e4]
  have e5 : ((2 : ℝ) * ((i - k : ℕ) : ℝ) - i) * g = -((2 * k - i : ℝ) * g) := by
    rw [Nat.cast_sub hk']; ring
  rw [e5, Real.sin_neg]
  ring

theorem wfVal_mirror (n : ℕ) (K K' : List ℝ) (hK : K.length = tri (n + 1))
    (h : Spec.Mirrored K K') (pr x y : ℝ) :
    wfVal n K' ((cart2pol x y).1 / pr) (cart2pol x y).2 =
      wfVal n K ((cart2pol x (-y)).1 / pr) (cart2pol x (-y)).2 := by
  unfold wfVal
  refine Finset.sum_congr rfl fun i hi => Finset.sum_congr rfl fun k hk => ?_
  have hi' : i ≤ n := by simpa [Nat.lt_succ_iff] using hi
  have hk' : k ≤ i := by simpa [Nat.lt_succ_iff] using hk
  have := h.2 i k hk' (by rw [hK]; exact place_lt n i hi')
  rw [Uv_mirror i k hk']
  simp only [Spec.place] at this
  show K'.getD (i * (i + 1) / 2 + k) 0 * _ = K.getD (i * (i + 1) / 2 + k) 0 * _
  rw [this]
  ring

/-- **C76.**  The turned coefficients give the wavefront read at the turned points. -/
theorem C76_wavefront {ι : Type} (x y : ι → ℝ) (pr g : ℝ) (K K' : List ℝ) (h : Spec.Turned g K K')
    (n : ℕ) (hK : K.length = (n + 1) * (n + 2) / 2) :
    ∃ W, wavefront (fun q => (cart2pol (x q) (y q)).1 / pr) (fun q => (cart2pol (x q) (y q)).2) K' =
        .ok W ∧
      wavefront
        (fun q => (cart2pol (x q * Real.cos g - y q * Real.sin g) (x q * Real.sin g + y q * Real.cos g)).1 / pr)
        (fun q => (cart2pol (x q * Real.cos g - y q * Real.sin g) (x q * Real.sin g + y q * Real.cos g)).2)
        K = .ok W := by
  refine ⟨_, wavefront_ok _ _ K' n (h.1.trans hK), ?_⟩
  rw [wavefront_ok _ _ K n hK]
  congr 1
  funext q
  exact (wfVal_turn n K K' g hK h pr (x q) (y q)).symm

/-- **C76.**  And the mirrored coefficients the wavefront read at the mirrored points. -/
theorem C76_mirror {ι : Type} (x y : ι → ℝ) (pr : ℝ) (K K' : List ℝ) (h : Spec.Mirrored K K')
    (n : ℕ) (hK : K.length = (n + 1) * (n + 2) / 2) :
    ∃ W, wavefront (fun q => (cart2pol (x q) (y q)).1 / pr) (fun q => (cart2pol (x q) (y q)).2) K' =
        .ok W ∧
      wavefront (fun q => (cart2pol (x q) (-y q)).1 / pr) (fun q => (cart2pol (x q) (-y q)).2) K =
        .ok W := by
  refine ⟨_, wavefront_ok _ _ K' n (h.1.trans hK), ?_⟩
  rw [wavefront_ok _ _ K n hK]
  congr 1
  funext q
  exact (wfVal_mirror n K K' hK h pr (x q) (y q)).symm

/-! ### Phase maps and `np.rot90` -/

theorem cos_sin_quarter (k : ℤ) :
    (k % 4 = 0 → Real.cos (k * (Real.pi / 2)) = 1 ∧ Real.sin (k * (Real.pi / 2)) = 0) ∧
    (k % 4 = 1 → Real.cos (k * (Real.pi / 2)) = 0 ∧ Real.sin (k * (Real.pi / 2)) = 1) ∧
    (k % 4 = 2 → Real.cos (k * (Real.pi / 2)) = -1 ∧ Real.sin (k * (Real.pi / 2)) = 0) ∧
    (k % 4 = 3 → Real.cos (k * (Real.pi / 2)) = 0 ∧ Real.sin (k * (Real.pi / 2)) = -1) := by
  have hk : ∀ r : ℤ, k % 4 = r → (k : ℝ) * (Real.pi / 2) =
      r * (Real.pi / 2) + ((k / 4 : ℤ) : ℝ) * (2 * Real.pi) := by
    intro r hr
    have : (k : ℝ) = 4 * ((k / 4 : ℤ) : ℝ) + r := by
      have : k = 4 * (k / 4) + r := by omega
      exact_mod_cast this
    rw [this]
    have e : (4 * ((k / 4 : ℤ)) + r) / 4 = k / 4 := by omega
    ring
  refine ⟨fun h => ?_, fun h => ?_, fun h => ?_, fun h => ?_⟩
  · rw [hk 0 h, Real.cos_add_int_mul_two_pi, Real.sin_add_int_mul_two_pi]; simp
  · rw [hk 1 h, Real.cos_add_int_mul_two_pi, Real.sin_add_int_mul_two_pi]; simp
  · rw [hk 2 h, Real.cos_add_int_mul_two_pi, Real.sin_add_int_mul_two_pi]
    have : ((2 : ℤ) : ℝ) * (Real.pi / 2) = Real.pi := by push_cast; ring
    rw [this]; simp
  · rw [hk 3 h, Real.cos_add_int_mul_two_pi, Real.sin_add_int_mul_two_pi]
    have : ((3 : ℤ) : ℝ) * (Real.pi / 2) = Real.pi + Real.pi / 2 := by push_cast; ring
    rw [this, Real.cos_add, Real.sin_add]; simp

/-- Dropping piston and tilt commutes with turning. -/
theorem turned_used {g : ℝ} {K K' L L' : List ℝ} {piston tilt : Bool} (h : Spec.Turned g K K')
    (hL : L.length = K.length) (hL' : L'.length = K'.length)
    (h1 : ∀ m, L.getD m 0 = Spec.usedCoeff K piston tilt m)
    (h2 : ∀ m, L'.getD m 0 = Spec.usedCoeff K' piston tilt m) : Spec.Turned g L L' := by
  refine ⟨by rw [hL', hL, h.1], fun n k hk hp => ?_⟩
  rw [hL] at hp
  have e := h.2 n k hk hp
  rw [h1, h1, h2]
  unfold Spec.usedCoeff
  rcases Nat.lt_or_ge n 2 with hn | hn
  · rcases Nat.lt_or_ge n 1 with hn0 | hn1
    · have : n = 0 := by omega
      subst this
      have : k = 0 := by omega
      subst this
      simp only [Spec.place] at e ⊢
      cases piston <;> simp_all
    · have : n = 1 := by omega
      subst this
      have hk' : k = 0 ∨ k = 1 := by omega
      rcases hk' with rfl | rfl
      · simp only [Spec.place] at e ⊢
        cases tilt
        · simp
        · simp at e ⊢
          exact e
      · simp only [Spec.place] at e ⊢
        cases tilt
        · simp
        · simp at e ⊢
          exact e
  · have h3 : ∀ j, 3 ≤ Spec.place n j := by
      intro j
      have := tri_mono hn
      have h0 : tri 2 = 3 := rfl
      show 3 ≤ tri n + j
      omega
    have hx : ∀ j, ¬ ((Spec.place n j = 0 ∧ piston = false) ∨
        ((Spec.place n j = 1 ∨ Spec.place n j = 2) ∧ tilt = false)) := by
      intro j
      have := h3 j
      omega
    rw [if_neg (hx _), if_neg (hx _), if_neg (hx _)]
    exact e

/-- **C76.**  `np.rot90` of a phase map is the phase map of the turned coefficients, with or without
piston and tilt. -/
theorem C76_rot90 (K K' : List ℝ) (pr : ℝ) (piston tilt : Bool) (N n : ℕ) (hN : 2 ≤ N)
    (hK : K.length = (n + 1) * (n + 2) / 2) (ht : tilt = false → 1 ≤ n) (k : ℤ)
    (h : Spec.Turned (k * (Real.pi / 2)) K K') :
    ∃ P P', phase K pr piston tilt N = .ok P ∧ phase K' pr piston tilt N = .ok P' ∧
      (⟨N, N, P.phi⟩ : Mat ℝ).rot90 k = ⟨N, N, P'.phi⟩ := by
  have h3 : tilt = false → 3 ≤ K.length := by
    intro h0
    have := tri_mono (show 2 ≤ n + 1 by have := ht h0; omega)
    rw [hK]
    simpa [tri] using this
  obtain ⟨L, hL, hLu, hP⟩ := phase_ok K pr piston tilt N n hK h3
  obtain ⟨L', hL', hLu', hP'⟩ := phase_ok K' pr piston tilt N n (h.1.trans hK)
    (fun h0 => by rw [h.1]; exact h3 h0)
  refine ⟨_, _, hP, hP', ?_⟩
  have hT := turned_used h hL hL' hLu hLu'
  have hW : ∀ x y : ℝ, wfVal n L' (Real.sqrt (x ^ 2 + y ^ 2) / pr) (arctan2 y x) = _ :=
    fun x y => wfVal_turn n L L' _ (hL.trans hK) hT pr x y
  simp only [cart2pol] at hW
  have hrev : ∀ i : Fin N, linspace (-pr) pr N i.rev = -linspace (-pr) pr N i := by
    intro i
    rw [linspace_axis, linspace_axis, axis_rev pr hN]
  have hk4 : k % 4 = 0 ∨ k % 4 = 1 ∨ k % 4 = 2 ∨ k % 4 = 3 := by omega
  obtain ⟨c0, c1, c2, c3⟩ := cos_sin_quarter k
  rcases hk4 with hk | hk | hk | hk
  · rw [rot90_0 _ hk]
    congr 1
    funext q
    simp only [hW, (c0 hk).1, (c0 hk).2, mul_one, mul_zero, sub_zero, zero_add]
  · rw [rot90_1 _ hk]
    congr 1
    funext q
    simp only [hW, (c1 hk).1, (c1 hk).2, hrev, mul_one, mul_zero, zero_sub, add_zero, neg_sq]
    rw [add_comm (linspace (-pr) pr N q.2 ^ 2) (linspace (-pr) pr N q.1 ^ 2)]
  · rw [rot90_2 _ hk]
    congr 1
    funext q
    simp only [hW, (c2 hk).1, (c2 hk).2, hrev, mul_neg, mul_one, mul_zero, sub_zero, zero_add, neg_sq]
  · rw [rot90_3 _ hk]
    congr 1
    funext q
    simp only [hW, (c3 hk).1, (c3 hk).2, hrev, mul_neg, mul_one, mul_zero, sub_neg_eq_add, zero_add,
      add_zero, neg_sq]
    rw [add_comm (linspace (-pr) pr N q.2 ^ 2) (linspace (-pr) pr N q.1 ^ 2)]

/-- **C76.**  The actuator object: the surface made from the phase map of `K` with `nrot` is the one
made without turning from the phase map of the coefficients turned back by `nrot` quarter turns. -/
theorem C76_itransform (a : Act) (K K' : List ℝ) (pr : ℝ) (piston tilt : Bool) (N n : ℕ) (hN : 2 ≤ N)
    (hK : K.length = (n + 1) * (n + 2) / 2) (ht : tilt = false → 1 ≤ n)
    (h : Spec.Turned (-a.nrot * (Real.pi / 2)) K K') :
    ∃ P P', phase K pr piston tilt N = .ok P ∧ phase K' pr piston tilt N = .ok P' ∧
      a.itransform (.d2 ⟨N, N, fun q => .fin (P.phi q)⟩) =
        { a with nrot := 0 }.itransform (.d2 ⟨N, N, fun q => .fin (P'.phi q)⟩) := by
  obtain ⟨P, P', h1, h2, h3⟩ := C76_rot90 K K' pr piston tilt N n hN hK ht (-a.nrot)
    (by push_cast; exact h)
  refine ⟨P, P', h1, h2, ?_⟩
  have e1 : (⟨N, N, fun q => .fin (P.phi q)⟩ : Mat Fl) = (⟨N, N, P.phi⟩ : Mat ℝ).map Fl.fin := rfl
  have e2 : (⟨N, N, fun q => .fin (P'.phi q)⟩ : Mat Fl) = (⟨N, N, P'.phi⟩ : Mat ℝ).map Fl.fin := rfl
  simp only [Act.itransform]
  rw [e1, e2, ← h3]
  congr 2
  rw [rot90_0 (k := -(0 : ℤ)) _ (by norm_num), ← map_rot90, ← map_rot90]
  rfl

/-- **C76.**  A half turn changes the sign of the odd orders. -/
theorem C76_half (K K' : List ℝ) : Spec.Turned Real.pi K K' ↔
    K'.length = K.length ∧ ∀ n k, k ≤ n → Spec.place n n < K.length →
      K'.getD (Spec.place n k) 0 = (-1) ^ n * K.getD (Spec.place n k) 0 := by
  have hcs : ∀ n k : ℕ, Real.cos ((2 * k - n : ℝ) * Real.pi) = (-1) ^ n ∧
      Real.sin ((2 * k - n : ℝ) * Real.pi) = 0 := by
    intro n k
    have e : (2 * k - n : ℝ) * Real.pi = k * (2 * Real.pi) - n * Real.pi := by ring
    rw [e]
    constructor
    · rw [Real.cos_nat_mul_two_pi_sub, Real.cos_nat_mul_pi]
    · rw [Real.sin_nat_mul_two_pi_sub, Real.sin_nat_mul_pi, neg_zero]
  unfold Spec.Turned
  refine and_congr Iff.rfl ⟨fun h n k hk hp => ?_, fun h n k hk hp => ?_⟩
  · rw [h n k hk hp, (hcs n k).1, (hcs n k).2]; ring
  · rw [h n k hk hp, (hcs n k).1, (hcs n k).2]; ring

theorem order_le_two {n : ℕ} (h : Spec.place n n < 6) : n ≤ 2 := by
  by_contra hn
  have h1 := tri_mono (show 3 ≤ n by omega)
  have h2 : tri 3 = 6 := rfl
  have : tri n + n < 6 := h
  omega

/-- A quarter turn of all coefficients up to order 2, and their mirror image. -/
theorem turned_example (k0 k1 k2 k3 k4 k5 : ℝ) :
    Spec.Turned (Real.pi / 2) [k0, k1, k2, k3, k4, k5] [k0, -k2, k1, -k3, k4, -k5] ∧
    Spec.Mirrored [k0, k1, k2, k3, k4, k5] [k0, -k1, k2, -k3, k4, k5] := by
  have e1 : (-2 : ℝ) * (Real.pi / 2) = -Real.pi := by ring
  have e2 : (2 : ℝ) * (Real.pi / 2) = Real.pi := by ring
  refine ⟨⟨rfl, fun n k hk hp => ?_⟩, ⟨rfl, fun n k hk hp => ?_⟩⟩
  · have := order_le_two hp
    have h : (n = 0 ∧ k = 0) ∨ (n = 1 ∧ k = 0) ∨ (n = 1 ∧ k = 1) ∨ (n = 2 ∧ k = 0) ∨
        (n = 2 ∧ k = 1) ∨ (n = 2 ∧ k = 2) := by omega
    rcases h with ⟨rfl, rfl⟩ | ⟨rfl, rfl⟩ | ⟨rfl, rfl⟩ | ⟨rfl, rfl⟩ | ⟨rfl, rfl⟩ | ⟨rfl, rfl⟩ <;>
      simp [Spec.place, Real.cos_neg, Real.sin_neg] <;> norm_num <;>
      simp [e1, e2]
  · have := order_le_two hp
    have h : (n = 0 ∧ k = 0) ∨ (n = 1 ∧ k = 0) ∨ (n = 1 ∧ k = 1) ∨ (n = 2 ∧ k = 0) ∨
        (n = 2 ∧ k = 1) ∨ (n = 2 ∧ k = 2) := by omega
    rcases h with ⟨rfl, rfl⟩ | ⟨rfl, rfl⟩ | ⟨rfl, rfl⟩ | ⟨rfl, rfl⟩ | ⟨rfl, rfl⟩ | ⟨rfl, rfl⟩ <;>
      simp [Spec.place]

example : ∃ P P', phase [0.1, 0.2, 0.3, 0.4, 0.5, 0.6] 50 false true 256 = .ok P ∧
    phase [0.1, -0.3, 0.2, -0.4, 0.5, -0.6] 50 false true 256 = .ok P' ∧
    (⟨256, 256, P.phi⟩ : Mat ℝ).rot90 1 = ⟨256, 256, P'.phi⟩ :=
  C76_rot90 _ _ 50 false true 256 2 (by norm_num) rfl (by simp) 1
    (by simpa using (turned_example 0.1 0.2 0.3 0.4 0.5 0.6).1)

end Verif.Props
