import Verif.Lemmas.ZernikeUnique
import Verif.Props.Wavefront

/-!
# The coefficients can be read off the wavefront and off the phase map (C68)
-/

namespace Verif.Props

open Verif Verif.Np Verif.Zernike Verif.Aperture Finset

/-- The number of the coefficient of `U(n, l)`, with `l = 2 k - n`. -/
def Spec.place (n k : ℕ) : ℕ := n * (n + 1) / 2 + k

/-- **C68.**  Every coefficient is the projection of the wavefront on its polynomial over the unit
disc (polar coordinates), divided by the square norm of the polynomial. -/
theorem C68_projection (K : List ℝ) (n : ℕ) (hK : K.length = (n + 1) * (n + 2) / 2) (i k : ℕ)
    (hi : i ≤ n) (hk : k ≤ i) :
    ∃ W u : ℝ × ℝ → ℝ, wavefront (fun q : ℝ × ℝ => q.1) (fun q => q.2) K = .ok W ∧
      (∀ q, U (.int i) (.int (2 * (k : ℤ) - i)) q.1 q.2 = .ok (u q)) ∧
      K[Spec.place i k]? = some
        (2 * (i + 1) / (Real.pi * if 2 * k = i then 2 else 1) *
          ∫ rho in (0:ℝ)..1, ∫ theta in (0:ℝ)..(2 * Real.pi), W (rho, theta) * u (rho, theta) * rho) := by
  refine ⟨_, fun q => Uv i (-(i : ℤ) + 2 * (k : ℤ)) q.1 q.2, wavefront_ok _ _ K n hK, fun q => ?_, ?_⟩
  · rw [show 2 * (k : ℤ) - i = -(i : ℤ) + 2 * (k : ℤ) by ring]
    exact U_ok i k hk _ _
  · have hlt : tri i + k < K.length := by
      rw [hK]
      show tri i + k < tri (n + 1)
      have h1 := tri_mono (show i + 1 ≤ n + 1 by omega)
      have h2 := tri_succ i
      omega
    show K[tri i + k]? = _
    rw [wfVal_inner n K i k hi hk, List.getElem?_eq_getElem hlt, List.getD, List.getElem?_eq_getElem hlt]
    congr 1
    have hpi := Real.pi_pos
    have hi0 : (0 : ℝ) < i + 1 := by positivity
    simp only [Option.getD_some]
    split_ifs <;> field_simp

/-- **C68.**  Different coefficients give different wavefronts. -/
theorem C68_wavefront (K L : List ℝ) (n : ℕ) (hK : K.length = (n + 1) * (n + 2) / 2)
    (hL : L.length = K.length)
    (h : wavefront (fun q : ℝ × ℝ => q.1) (fun q => q.2) K =
      wavefront (fun q : ℝ × ℝ => q.1) (fun q => q.2) L) : K = L := by
  refine List.ext_getElem hL.symm fun m h1 h2 => ?_
  obtain ⟨i, k, hi, hk, rfl⟩ := exists_row_pos n m (by rw [hK] at h1; exact h1)
  obtain ⟨W, u, hW, hu, e⟩ := C68_projection K n hK i k hi hk
  obtain ⟨W', u', hW', hu', e'⟩ := C68_projection L n (hL.trans hK) i k hi hk
  have hWW : W = W' := by rw [hW, hW'] at h; exact Except.ok.inj h
  have huu : u = u' := funext fun q => Except.ok.inj ((hu q).symm.trans (hu' q))
  have : K[tri i + k]? = L[tri i + k]? := by
    show K[Spec.place i k]? = L[Spec.place i k]?
    rw [e, e', hWW, huu]
  rw [List.getElem?_eq_getElem h1, List.getElem?_eq_getElem h2] at this
  exact Option.some.inj this

/-! ## On the grid of the phase map -/

theorem wfVal_sub (n : ℕ) (K L : List ℝ) (h : K.length = L.length) (rho theta : ℝ) :
    wfVal n (List.zipWith (· + ·) K (L.map (-1 * ·))) rho theta =
      wfVal n K rho theta - wfVal n L rho theta := by
  rw [wfVal_add n _ _ (by simpa using h), wfVal_smul]; ring

/-- The grid points in the middle of the axis. -/
noncomputable def midGrid (N n : ℕ) : Finset ℝ :=
  (range (n + 1)).image fun t => -1 + (((N - 1 - n) / 2 + t : ℕ) : ℝ) * (2 / ((N : ℝ) - 1))

theorem midGrid_card (N n : ℕ) (hN : 2 * n + 2 ≤ N) (hn : 1 ≤ n) : (midGrid N n).card = n + 1 := by
  have h1 : (0 : ℝ) < 2 / ((N : ℝ) - 1) := by
    have : (2 : ℝ) ≤ N := by exact_mod_cast (by omega : 2 ≤ N)
    apply div_pos <;> linarith
  rw [midGrid, Finset.card_image_of_injective, card_range]
  intro s t hst
  simp only [add_right_inj] at hst
  have := mul_right_cancel₀ h1.ne' hst
  have : (N - 1 - n) / 2 + s = (N - 1 - n) / 2 + t := by exact_mod_cast this
  omega

theorem midGrid_mem (N n : ℕ) (hN : 2 * n + 2 ≤ N) (hn : 1 ≤ n) (pr : ℝ) (hpr : 0 < pr) (x : ℝ)
    (hx : x ∈ midGrid N n) :
    (∃ j : Fin N, linspace (-pr) pr N j = pr * x) ∧ 2 * x ^ 2 ≤ 1 := by
  obtain ⟨t, ht, rfl⟩ := Finset.mem_image.1 hx
  have ht' := mem_range.1 ht
  set c := (N - 1 - n) / 2 + t with hc
  have hcN : c < N := by omega
  have hN1 : (0 : ℝ) < (N : ℝ) - 1 := by
    have : (2 : ℝ) ≤ N := by exact_mod_cast (by omega : 2 ≤ N)
    linarith
  refine ⟨⟨⟨c, hcN⟩, ?_⟩, ?_⟩
  · unfold linspace
    field_simp
    ring
  · have e : -1 + (c : ℝ) * (2 / ((N : ℝ) - 1)) = (2 * (c : ℝ) - ((N : ℝ) - 1)) / ((N : ℝ) - 1) := by
      field_simp; ring
    have lo : -((n : ℝ) + 1) ≤ 2 * (c : ℝ) - ((N : ℝ) - 1) := by
      have : N ≤ 2 * c + n + 2 := by omega
      have : (N : ℝ) ≤ 2 * c + n + 2 := by exact_mod_cast this
      linarith
    have hi : 2 * (c : ℝ) - ((N : ℝ) - 1) ≤ (n : ℝ) + 1 := by
      have : 2 * c ≤ N + n := by omega
      have : (2 : ℝ) * c ≤ N + n := by exact_mod_cast this
      linarith
    have hNn : 2 * (n : ℝ) + 1 ≤ (N : ℝ) - 1 := by
      have : (2 : ℝ) * n + 2 ≤ N := by exact_mod_cast hN
      linarith
    have hn' : (1 : ℝ) ≤ n := by exact_mod_cast hn
    have hsq : (2 * (c : ℝ) - ((N : ℝ) - 1)) ^ 2 ≤ ((n : ℝ) + 1) ^ 2 :=
      sq_le_sq' lo hi
    rw [e, div_pow, ← mul_div_assoc, div_le_one (by positivity)]
    nlinarith

/-- **C68.**  Two vectors of coefficients of order at least one whose phase maps on at least
`2 n + 2` points agree, agree in every coefficient that takes part (piston and tilt only where they
are asked for). -/
theorem C68_phase (K L : List ℝ) (pr : ℝ) (hpr : 0 < pr) (piston tilt : Bool) (N n : ℕ) (hn : 1 ≤ n)
    (hN : 2 * n + 2 ≤ N) (hK : K.length = (n + 1) * (n + 2) / 2) (hL : L.length = K.length)
    (h : phase K pr piston tilt N = phase L pr piston tilt N) :
    ∀ m, ¬ (m = 0 ∧ piston = false) → ¬ ((m = 1 ∨ m = 2) ∧ tilt = false) → K[m]? = L[m]? := by
  have h3 : 3 ≤ K.length := by
    rw [hK]
    have := tri_mono (show 2 ≤ n + 1 by omega)
    simpa [tri] using this
  obtain ⟨K', l1, u1, p1⟩ := phase_ok K pr piston tilt N n hK (fun _ => h3)
  obtain ⟨L', l2, u2, p2⟩ := phase_ok L pr piston tilt N n (hL.trans hK) (fun _ => by omega)
  rw [p1, p2, Except.ok.injEq, PhaseMap.mk.injEq] at h
  have hphi := h.2.2
  set D := List.zipWith (· + ·) K' (L'.map (-1 * ·)) with hD
  have hlen : K'.length = L'.length := by omega
  have hgrid : ∀ rho theta, wfVal n D rho theta = 0 := by
    intro rho theta
    have hcard := midGrid_card N n hN hn
    refine wfVal_zero_of_grid n D (midGrid N n) (midGrid N n) (by omega) (by omega) ?_ rho theta
    intro x hx y hy
    obtain ⟨⟨j, hj⟩, hx2⟩ := midGrid_mem N n hN hn pr hpr x hx
    obtain ⟨⟨i, hi⟩, hy2⟩ := midGrid_mem N n hN hn pr hpr y hy
    have hq := congrFun hphi (i, j)
    simp only [hi, hj] at hq
    have hin : ¬ ((pr * x) ^ 2 + (pr * y) ^ 2 > pr ^ 2) := by
      rw [not_lt, mul_pow, mul_pow, ← mul_add]
      have : x ^ 2 + y ^ 2 ≤ 1 := by linarith
      calc pr ^ 2 * (x ^ 2 + y ^ 2) ≤ pr ^ 2 * 1 := by
            apply mul_le_mul_of_nonneg_left this (by positivity)
        _ = pr ^ 2 := mul_one _
    rw [if_neg hin, if_neg hin] at hq
    have hpi := Real.pi_pos
    have hq' := mul_right_cancel₀ hpi.ne' hq
    have hq'' := mul_right_cancel₀ (two_ne_zero (α := ℝ)) hq'
    set z : ℂ := ⟨pr * x, pr * y⟩ with hz
    have hnorm : Real.sqrt ((pr * x) ^ 2 + (pr * y) ^ 2) = ‖z‖ := by
      rw [Complex.norm_eq_sqrt_sq_add_sq]
    refine ⟨‖z‖ / pr, Complex.arg z, ?_, ?_, ?_⟩
    · rw [div_mul_eq_mul_div, Complex.norm_mul_cos_arg, eq_div_iff hpr.ne']
      show x * pr = pr * x
      ring
    · rw [div_mul_eq_mul_div, Complex.norm_mul_sin_arg, eq_div_iff hpr.ne']
      show y * pr = pr * y
      ring
    · rw [wfVal_sub n K' L' hlen, sub_eq_zero, ← hnorm]
      exact hq''
  have hcoef := wfVal_coeff_zero n D hgrid
  intro m hm1 hm2
  by_cases hlt : m < K.length
  · have h0 := hcoef m (by rw [hK] at hlt; exact hlt)
    rw [hD, getD_zipWith_add _ _ (by simpa using hlen), getD_map_mul, u1, u2] at h0
    have hno : ¬ ((m = 0 ∧ piston = false) ∨ ((m = 1 ∨ m = 2) ∧ tilt = false)) := by
      rintro (h | h)
      · exact hm1 h
      · exact hm2 h
    unfold Spec.usedCoeff at h0
    rw [if_neg hno, if_neg hno] at h0
    have hlt' : m < L.length := by omega
    simp only [List.getD, List.getElem?_eq_getElem hlt, List.getElem?_eq_getElem hlt',
      Option.getD_some] at h0
    rw [List.getElem?_eq_getElem hlt, List.getElem?_eq_getElem hlt']
    congr 1
    linarith
  · rw [List.getElem?_eq_none (by omega), List.getElem?_eq_none (by omega)]

/-- **C68.**  With piston and tilt the phase map determines the coefficients. -/
theorem C68_all (K L : List ℝ) (pr : ℝ) (hpr : 0 < pr) (N n : ℕ) (hn : 1 ≤ n)
    (hN : 2 * n + 2 ≤ N) (hK : K.length = (n + 1) * (n + 2) / 2) (hL : L.length = K.length)
    (h : phase K pr true true N = phase L pr true true N) : K = L :=
  List.ext_getElem? fun m => C68_phase K L pr hpr true true N n hn hN hK hL h m (by simp) (by simp)

/-- **C68.**  The bound is needed: on three points the map of `U(2, -2)` is the same as that of no
coefficient at all. -/
theorem C68_coarse (pr : ℝ) (hpr : 0 < pr) :
    phase [0, 0, 0, 1, 0, 0] pr true true 3 = phase [0, 0, 0, 0, 0, 0] pr true true 3 := by
  have key : ∀ (x y : ℝ), x * y = 0 → ∀ K : List ℝ, (∀ m, m ≠ 3 → K.getD m 0 = 0) →
      wfVal 2 K (Real.sqrt (x ^ 2 + y ^ 2) / pr) (arctan2 y x) = 0 := by
    intro x y hxy K hK
    have hsin : Real.sin (2 * arctan2 y x) = 0 := by
      have hz : (⟨x, y⟩ : ℂ) = 0 ∨ (⟨x, y⟩ : ℂ) ≠ 0 := em _
      rcases hz with hz | hz
      · simp [arctan2, hz]
      · have h1 := Complex.norm_mul_cos_arg (⟨x, y⟩ : ℂ)
        have h2 := Complex.norm_mul_sin_arg (⟨x, y⟩ : ℂ)
        have h0 : ‖(⟨x, y⟩ : ℂ)‖ ≠ 0 := norm_ne_zero_iff.2 hz
        rw [Real.sin_two_mul]
        simp only at h1 h2
        have : ‖(⟨x, y⟩ : ℂ)‖ * ‖(⟨x, y⟩ : ℂ)‖ *
            (Real.sin (arctan2 y x) * Real.cos (arctan2 y x)) = 0 := by
          have e : ‖(⟨x, y⟩ : ℂ)‖ * ‖(⟨x, y⟩ : ℂ)‖ *
            (Real.sin (arctan2 y x) * Real.cos (arctan2 y x)) =
            (‖(⟨x, y⟩ : ℂ)‖ * Real.cos (arctan2 y x)) * (‖(⟨x, y⟩ : ℂ)‖ * Real.sin (arctan2 y x)) := by
            ring
          rw [e]
          unfold arctan2
          rw [h1, h2, hxy]
        have := (mul_eq_zero.1 this).resolve_left (mul_ne_zero h0 h0)
        linarith
    obtain ⟨a, b, -, -, -, hU⟩ := U_value 2 (-2) ⟨by norm_num, by decide⟩
    have hu : Uv 2 (-2) (Real.sqrt (x ^ 2 + y ^ 2) / pr) (arctan2 y x) = 0 := by
      have := hU (Real.sqrt (x ^ 2 + y ^ 2) / pr) (arctan2 y x)
      push_cast at this
      rw [Uv_of_ok this, ang, if_pos (by norm_num)]
      norm_num [hsin]
    rw [wfVal]
    simp only [Finset.sum_range_succ, Finset.sum_range_zero, tri]
    simp only [List.getD_eq_getElem?_getD] at hK
    norm_num
    rw [hK 0 (by norm_num), hK 1 (by norm_num), hK 2 (by norm_num), hK 4 (by norm_num),
      hK 5 (by norm_num), hu]
    ring
  obtain ⟨K', l1, u1, p1⟩ := phase_ok [0, 0, 0, 1, 0, 0] pr true true 3 2 rfl (fun h => by cases h)
  obtain ⟨L', l2, u2, p2⟩ := phase_ok [0, 0, 0, 0, 0, 0] pr true true 3 2 rfl (fun h => by cases h)
  have hz : ∀ (c : ℝ) (m : ℕ), m ≠ 3 → ([0, 0, 0, c, 0, 0] : List ℝ).getD m 0 = 0 := by
    intro c m hm
    rcases m with _ | _ | _ | _ | _ | _ | m
    · rfl
    · rfl
    · rfl
    · exact absurd rfl hm
    · rfl
    · rfl
    · rfl
  have hK' : ∀ m, m ≠ 3 → K'.getD m 0 = 0 := by
    intro m hm
    rw [u1]; simp only [Spec.usedCoeff, Bool.true_eq_false, and_false, or_self, if_false]
    exact hz 1 m hm
  have hL' : ∀ m, m ≠ 3 → L'.getD m 0 = 0 := by
    intro m hm
    rw [u2]; simp only [Spec.usedCoeff, Bool.true_eq_false, and_false, or_self, if_false]
    exact hz 0 m hm
  rw [p1, p2]
  congr 2
  funext q
  congr 2
  by_cases hq : (linspace (-pr) pr 3 q.2) ^ 2 + (linspace (-pr) pr 3 q.1) ^ 2 > pr ^ 2
  · rw [if_pos hq, if_pos hq]
  · have hv : ∀ i : Fin 3, linspace (-pr) pr 3 i = 0 ∨ linspace (-pr) pr 3 i ^ 2 = pr ^ 2 := by
      intro i
      match i with
      | 0 => right; simp [linspace]
      | 1 => left; simp [linspace]; ring
      | 2 => right; simp [linspace]; ring
    have hxy : linspace (-pr) pr 3 q.2 * linspace (-pr) pr 3 q.1 = 0 := by
      rcases hv q.2 with h1 | h1
      · rw [h1, zero_mul]
      · rcases hv q.1 with h2 | h2
        · rw [h2, mul_zero]
        · exfalso; apply hq; rw [h1, h2]; have : 0 < pr ^ 2 := by positivity
          linarith
    rw [if_neg hq, if_neg hq, key _ _ hxy K' hK', key _ _ hxy L' hL']

example (pr : ℝ) (hpr : 0 < pr) :
    phase [0, 0, 0, 1, 2, 3] pr true true 6 ≠ phase [0, 0, 0, 1, 2, 4] pr true true 6 := by
  intro h
  have := C68_all [0, 0, 0, 1, 2, 3] [0, 0, 0, 1, 2, 4] pr hpr 6 2 (by norm_num) (by norm_num) rfl rfl h
  norm_num at this

end Verif.Props
