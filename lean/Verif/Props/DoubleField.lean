import Verif.Model.DoubleField
import Verif.Props.DoublePhase
import Verif.Props.Double
import Verif.Lemmas.Fourier

/-! # C124: the aperture and the radiation pattern in the arithmetic of doubles -/

namespace Verif.Props

open Verif Verif.Zernike Verif.Np Verif.Aperture Finset

/-! ## Bounded doubles -/

/-- A double of size at most `2 ^ a`. -/
def Bounded (a : ℕ) (x : Fl) : Prop := ∃ z, x = .fin z ∧ Spec.IsDouble z ∧ |z| ≤ 2 ^ a

theorem Bounded.mono {a b : ℕ} {x : Fl} (h : Bounded a x) (hab : a ≤ b) : Bounded b x := by
  obtain ⟨z, h1, h2, h3⟩ := h
  exact ⟨z, h1, h2, h3.trans (two_pow_le hab)⟩

theorem bounded_round {rnd : ℝ → Fl} (h : Spec.Rounding rnd) {y : ℝ} {a : ℕ} (ha : a ≤ 900) (hy : |y| ≤ 2 ^ a) :
    Bounded (a + 1) (rnd y) := by
  obtain ⟨z, h1, h2, h3⟩ := round_rel h (hy.trans (two_pow_le ha))
  refine ⟨z, h1, h2, ?_⟩
  have e : |z| ≤ |z - y| + |y| := by
    have := abs_add_le (z - y) y
    rwa [sub_add_cancel] at this
  have h4 : (1 : ℝ) ≤ 2 ^ a := one_le_pow₀ one_le_two
  have hτ := tiny_le (k := -1075) (by norm_num)
  rw [pow_succ]
  generalize (2 : ℝ) ^ a = A at *
  generalize (2 : ℝ) ^ (-1075 : ℤ) = τ at *
  norm_num at h3 hτ
  linarith

theorem bounded_mul {rnd : ℝ → Fl} (h : Spec.Rounding rnd) {x y : Fl} {a b : ℕ} (hab : a + b ≤ 900) (hx : Bounded a x)
    (hy : Bounded b y) : Bounded (a + b + 1) (Dbl.mul rnd x y) := by
  obtain ⟨u, rfl, -, h1⟩ := hx
  obtain ⟨v, rfl, -, h2⟩ := hy
  refine bounded_round h hab ?_
  rw [abs_mul, pow_add]
  gcongr

theorem bounded_div {rnd : ℝ → Fl} (h : Spec.Rounding rnd) {x : Fl} {d : ℝ} {a b : ℕ} (hab : a + b ≤ 900)
    (hx : Bounded a x) (hd : 1 / 2 ^ b ≤ d) : Bounded (a + b + 1) (Dbl.div rnd x (.fin d)) := by
  obtain ⟨u, rfl, -, h1⟩ := hx
  have hd0 : 0 < d := lt_of_lt_of_le (by positivity) hd
  have : Fl.div (.fin u) (.fin d) = .fin (u / d) := if_neg hd0.ne'
  unfold Dbl.div
  rw [this]
  refine bounded_round h hab ?_
  rw [abs_div, abs_of_pos hd0, div_le_iff₀ hd0, pow_add, mul_assoc]
  have h2 : (1 : ℝ) ≤ 2 ^ b * d := by
    rw [div_le_iff₀ (by positivity)] at hd
    linarith
  have h3 : (0 : ℝ) < 2 ^ a := by positivity
  nlinarith

theorem bounded_add {rnd : ℝ → Fl} (h : Spec.Rounding rnd) {x y : Fl} {a : ℕ} (ha : a ≤ 899) (hx : Bounded a x)
    (hy : Bounded a y) : Bounded (a + 2) (Dbl.add rnd x y) := by
  obtain ⟨u, rfl, -, h1⟩ := hx
  obtain ⟨v, rfl, -, h2⟩ := hy
  refine bounded_round (a := a + 1) h (by omega) ?_
  rw [pow_succ]
  linarith [abs_add_le u v]

theorem bounded_ofInt {rnd : ℝ → Fl} (h : Spec.Rounding rnd) {z : ℤ} {a : ℕ} (ha : a ≤ 900) (hz : |z| ≤ 2 ^ a) :
    Bounded (a + 1) (Dbl.ofInt rnd z) := by
  refine bounded_round h ha ?_
  have : ((|z| : ℤ) : ℝ) ≤ ((2 ^ a : ℤ) : ℝ) := by exact_mod_cast hz
  push_cast at this
  exact this

/-- A sum of not too many bounded numbers. -/
theorem bounded_sum {rnd : ℝ → Fl} (h : Spec.Rounding rnd) {a : ℕ} (ha : a ≤ 800) (l : List Fl)
    (hl : ∀ x ∈ l, Bounded a x) (hN : l.length ≤ 256) : Bounded (a + 9) (Dbl.sum rnd l) := by
  have h0 : Dbl.ofInt rnd 0 = .fin 0 := by simpa [Dbl.ofInt] using rnd_zero h
  have h1a : (1 : ℝ) ≤ 2 ^ a := one_le_pow₀ one_le_two
  have key : ∀ (l : List Fl), (∀ x ∈ l, Bounded a x) → ∀ (k : ℕ) (s : ℝ), k + l.length ≤ 256 → Spec.IsDouble s →
      |s| ≤ k * 2 ^ (a + 1) → ∃ z, l.foldl (Dbl.add rnd) (.fin s) = .fin z ∧ Spec.IsDouble z ∧
        |z| ≤ (k + l.length : ℕ) * 2 ^ (a + 1) := by
    intro l
    induction l with
    | nil =>
      intro _ k s _ hd hs
      exact ⟨s, rfl, hd, by simpa using hs⟩
    | cons x l ih =>
      intro hl k s hk hd hs
      obtain ⟨v, rfl, -, hv⟩ := hl x (by simp)
      simp only [List.length_cons] at hk
      have hk' : (k : ℝ) ≤ 255 := by exact_mod_cast (by omega : k ≤ 255)
      have hy : |s + v| ≤ (2 * k + 1) * 2 ^ a := by
        rw [pow_succ] at hs
        linarith [abs_add_le s v]
      obtain ⟨z, z1, z2, z3⟩ := round_rel h (y := s + v) (by
        refine hy.trans ((?_ : _ ≤ (2 : ℝ) ^ (a + 9)).trans (two_pow_le (by omega)))
        rw [pow_add, mul_comm ((2 : ℝ) ^ a)]
        refine mul_le_mul_of_nonneg_right ?_ (by positivity)
        norm_num
        linarith)
      have hz : |z| ≤ (k + 1 : ℕ) * 2 ^ (a + 1) := by
        have e : |z| ≤ |z - (s + v)| + |s + v| := by
          have := abs_add_le (z - (s + v)) (s + v)
          rwa [sub_add_cancel] at this
        have hτ := tiny_le (k := -1075) (by norm_num)
        have h5 : |s + v| / 2 ^ 53 ≤ (2 * k + 1) * 2 ^ a / 2 ^ 53 := by gcongr
        have h6 : (2 * k + 1) * 2 ^ a / 2 ^ 53 ≤ (2 : ℝ) ^ a / 2 := by
          rw [div_le_div_iff₀ (by positivity) (by norm_num)]
          norm_num
          nlinarith
        push_cast
        rw [pow_succ]
        generalize (2 : ℝ) ^ (-1075 : ℤ) = τ at *
        generalize (2 : ℝ) ^ a = A at *
        generalize |s + v| / 2 ^ 53 = B at *
        norm_num at hτ
        linarith
      obtain ⟨w, w1, w2, w3⟩ := ih (fun x hx => hl x (by simp [hx])) (k + 1) z (by omega) z2 hz
      refine ⟨w, ?_, w2, ?_⟩
      · rw [List.foldl_cons]
        have : Dbl.add rnd (.fin s) (.fin v) = .fin z := z1
        rw [this, w1]
      · simp only [List.length_cons]
        rw [show k + (l.length + 1) = k + 1 + l.length by omega]
        exact w3
  obtain ⟨z, h1, h2, h3⟩ := key l hl 0 0 (by omega) isDouble_zero (by simp)
  refine ⟨z, ?_, h2, h3.trans ?_⟩
  · unfold Dbl.sum
    rw [h0, h1]
  · rw [zero_add, show a + 9 = 8 + (a + 1) by omega, pow_add (2 : ℝ) 8]
    refine mul_le_mul_of_nonneg_right ?_ (by positivity)
    norm_num
    exact hN

/-! ## The wavefront outside of the dish -/

/-- What is needed of the libraries: as for the phase; powers of numbers up to `2 ^ 10` do not overflow; the exponential
of an imaginary number and the absolute value of a complex one are right to four units in the last place. -/
structure Spec.AccurateC (L : Dbl.LibmC) : Prop where
  base : Spec.AccurateA L.toLibmA
  pow_finite : ∀ (x : ℝ) (k : ℕ), Spec.IsDouble x → |x| ≤ 2 ^ 10 → k ≤ 20 →
    ∃ p, L.pow (.fin x) k = .fin p ∧ Spec.IsDouble p ∧ |p| ≤ 2 ^ 201
  expI : ∀ x : ℝ, Spec.IsDouble x → ∃ c s, L.expI (.fin x) = (.fin c, .fin s) ∧ Spec.IsDouble c ∧ Spec.IsDouble s ∧
    |c| ≤ 1 ∧ |s| ≤ 1 ∧ |c - Real.cos x| ≤ 1 / 2 ^ 51 ∧ |s - Real.sin x| ≤ 1 / 2 ^ 51
  cabs : ∀ a b : ℝ, Spec.IsDouble a → Spec.IsDouble b → Real.sqrt (a ^ 2 + b ^ 2) ≤ 2 ^ 400 →
    ∃ r, L.cabs (.fin a, .fin b) = .fin r ∧ Spec.IsDouble r ∧ 0 ≤ r ∧
      |r - Real.sqrt (a ^ 2 + b ^ 2)| ≤ Real.sqrt (a ^ 2 + b ^ 2) / 2 ^ 50 + 2 ^ (-1072 : ℤ)

/-- The wavefront is finite up to a thousand radii. -/
theorem wavefrontD_bounded {rnd : ℝ → Fl} (h : Spec.Rounding rnd) {L : Dbl.LibmC} (hL : Spec.AccurateC L) {n : ℕ}
    (hn : n ≤ 20) {K : List ℝ} (hK : K.length = tri (n + 1)) (hKd : ∀ k ∈ K, Spec.IsDouble k)
    (hKs : ∀ k ∈ K, |k| ≤ 2 ^ 200) {rho theta : ℝ} (hr : Spec.IsDouble rho) (hr' : |rho| ≤ 2 ^ 10)
    (ht : Spec.IsDouble theta) (ht' : |theta| ≤ 4) :
    ∃ w, Dbl.wavefront rnd L.toLibm (.fin rho) (.fin theta) (K.map .fin) = .ok w ∧ Bounded 600 w := by
  have hR : ∀ a b : ℕ, b ≤ a → a + b ≤ 20 →
      ∃ r, Dbl.R rnd L.toLibm ((a : ℤ) + b) ((a : ℤ) - b) (.fin rho) = .ok r ∧ Bounded 280 r := by
    intro a b hba hab
    have ha : ((a : ℤ) + b + (a - b)) / 2 = a := by omega
    have hb : ((a : ℤ) + b - (a - b)) / 2 = b := by omega
    have hN : ((b : ℤ) + 1).toNat = b + 1 := by omega
    have hex : ∀ s : ℕ, ∃ t, s ≤ b →
        Dbl.rTerm rnd L.toLibm ((a : ℤ) + b) a b (.fin rho) s = .ok t ∧ Bounded 271 t := by
      intro s
      by_cases hs : s ≤ b
      · have e1 : (a : ℤ) + b - s = ((a + b - s : ℕ) : ℤ) := by omega
        have e3 : (a : ℤ) - s = ((a - s : ℕ) : ℤ) := by omega
        have e4 : (b : ℤ) - s = ((b - s : ℕ) : ℤ) := by omega
        have e5 : (a : ℤ) + b - 2 * s = ((a + b - 2 * s : ℕ) : ℤ) := by omega
        obtain ⟨q, hq0, -, hq'⟩ := absCoef_nat a b s hba hs
        set f := (a + b - s).factorial with hf
        set D := s.factorial * (a - s).factorial * (b - s).factorial with hD
        have hD0 : 0 < D := by positivity
        have hfd : f ∣ Nat.factorial 20 := Nat.factorial_dvd_factorial (by omega)
        have hDd : D ∣ Nat.factorial 20 := (Dvd.intro _ hq').trans hfd
        have hf2 : |((-1) ^ s * (f : ℤ) : ℤ)| ≤ 2 ^ 62 := by
          rw [abs_mul, abs_pow, abs_neg, abs_one, one_pow, one_mul]
          have h1 := (Nat.le_of_dvd (Nat.factorial_pos 20) hfd).trans (by decide : Nat.factorial 20 ≤ 2 ^ 62)
          rw [abs_of_nonneg (by positivity)]
          exact_mod_cast h1
        have r2 : Dbl.ofInt rnd ((D : ℕ) : ℤ) = .fin (D : ℝ) := by
          unfold Dbl.ofInt
          push_cast
          exact round_self h (isDouble_of_dvd hDd)
        obtain ⟨p, hp, hpd, hpb⟩ := hL.pow_finite rho (a + b - 2 * s) hr hr' (by omega)
        have hmul := bounded_mul h (by norm_num) (bounded_ofInt h (a := 62) (by norm_num) hf2)
          ⟨p, hp, hpd, hpb⟩
        have hdiv := bounded_div h (d := (D : ℝ)) (b := 0) (by norm_num) hmul (by
          have : (1 : ℝ) ≤ D := by exact_mod_cast hD0
          simpa using this)
        refine ⟨_, fun _ => ⟨?_, hdiv.mono (by norm_num)⟩⟩
        unfold Dbl.rTerm
        rw [e5, e1, e3, e4, factorial_ofNat, factorial_ofNat, factorial_ofNat, factorial_ofNat, ← r2]
        rfl
      · exact ⟨.nan, fun hs' => absurd hs' hs⟩
    choose t ht using hex
    refine ⟨_, ?_, bounded_sum h (a := 271) (by norm_num) ((List.range (b + 1)).map t) ?_ ?_⟩
    · unfold Dbl.R
      simp only [ha, hb]
      rw [hN, mapM_ok _ _ t fun s hs => (ht s (by simpa [Nat.lt_succ_iff] using hs)).1]
      rfl
    · intro x hx
      obtain ⟨s, hs, rfl⟩ := List.mem_map.1 hx
      exact (ht s (by simpa [Nat.lt_succ_iff] using hs)).2
    · rw [List.length_map, List.length_range]
      omega
  have hterm : ∀ j, ∃ t, j < K.length →
      Dbl.wfTerm rnd L.toLibm (.fin rho) (.fin theta) (K.map .fin) (nlList n) j = .ok t ∧ Bounded 500 t := by
    intro j
    by_cases hj : j < K.length
    swap
    · exact ⟨.nan, fun hj' => absurd hj' hj⟩
    obtain ⟨i, k, hi, hk, rfl⟩ := exists_row_pos n j (by omega)
    have hget := nlList_get n i k hi hk
    have h1 : pyIdx (K.map Fl.fin) (tri i + k) = .ok (.fin K[tri i + k]) := by
      simp [pyIdx, List.getElem?_eq_getElem hj]
    have h2 : pyIdx (nlList n) (tri i + k) = .ok ((i : ℤ), -(i : ℤ) + 2 * (k : ℤ)) := by
      simp [pyIdx, hget]
    obtain ⟨a, b, hba, hab, hl', -⟩ := U_value i _ (row_allowed i k hk)
    obtain ⟨r, hr, hrb⟩ := hR a b hba (by omega)
    have e1 : (i : ℤ) = (a : ℤ) + b := by omega
    have e2 : |(-(i : ℤ) + 2 * (k : ℤ))| = (a : ℤ) - b := by omega
    rw [← e1, ← e2] at hr
    have hm : Bounded 9 (Dbl.mul rnd (Dbl.ofInt rnd |(-(i : ℤ) + 2 * (k : ℤ))|) (.fin theta)) := by
      refine (bounded_mul h (a := 6) (b := 2) (by norm_num) (bounded_ofInt h (a := 5) (by norm_num) ?_)
        ⟨theta, rfl, ht, ht'.trans (by norm_num)⟩).mono (by norm_num)
      rw [abs_abs, e2]
      have : |(a : ℤ) - b| = (a : ℤ) - b := abs_of_nonneg (by omega)
      omega
    obtain ⟨mt, hmt, hmtd, -⟩ := hm
    obtain ⟨c, hc1, hc2, hc3, -⟩ := hL.base.base.cos mt hmtd
    obtain ⟨s, hs1, hs2, hs3, -⟩ := hL.base.base.sin mt hmtd
    have hU : ∃ u, Dbl.U rnd L.toLibm i (-(i : ℤ) + 2 * (k : ℤ)) (.fin rho) (.fin theta) = .ok u ∧ Bounded 281 u := by
      unfold Dbl.U
      rw [if_neg (by omega)]
      simp only [hr, bind, Except.bind, hmt, hc1, hs1]
      split_ifs
      · exact ⟨_, rfl, bounded_mul h (b := 0) (by norm_num) hrb ⟨s, rfl, hs2, by simpa using hs3⟩⟩
      · exact ⟨_, rfl, bounded_mul h (b := 0) (by norm_num) hrb ⟨c, rfl, hc2, by simpa using hc3⟩⟩
    obtain ⟨u, hu, hub⟩ := hU
    have hkm : K[tri i + k] ∈ K := List.getElem_mem hj
    refine ⟨_, fun _ => ⟨?_, (bounded_mul h (by norm_num) ⟨_, rfl, hKd _ hkm, hKs _ hkm⟩ hub).mono (by norm_num)⟩⟩
    unfold Dbl.wfTerm
    rw [h1, h2]
    simp only [bind, Except.bind, hu]
    rfl
  choose t ht using hterm
  have ho : Aperture.orderOf K.length = n := by
    apply orderOf_eq
    · rw [hK]
    · rw [hK, tri_succ (n + 1)]; omega
  have hpos : 0 < tri (n + 1) := by rw [tri_succ]; omega
  have hN : K.length ≤ 231 := by
    rw [hK]
    show (n + 1) * (n + 2) / 2 ≤ 231
    calc (n + 1) * (n + 2) / 2 ≤ (20 + 1) * (20 + 2) / 2 := by gcongr
      _ = 231 := by norm_num
  refine ⟨_, ?_, (bounded_sum h (a := 500) (by norm_num) ((List.range K.length).map t) ?_ ?_).mono (by norm_num)⟩
  · unfold Dbl.wavefront
    simp only [List.length_map, ho]
    rw [mapM_ok _ _ t fun i hi => (ht i (by simpa using hi)).1]
    show (if List.isEmpty _ = true then _ else _) = _
    rw [if_neg (by rw [List.isEmpty_iff, List.map_eq_nil_iff, List.range_eq_nil, hK]; omega)]
    rfl
  · intro x hx
    obtain ⟨i, hi, rfl⟩ := List.mem_map.1 hx
    exact (ht i (by simpa using hi)).2
  · rw [List.length_map, List.length_range]
    omega

/-- The normalised radius of a point of the box. -/
theorem radius_bounded {rnd : ℝ → Fl} (h : Spec.Rounding rnd) {p : ℝ} (h1 : 1 / 2 ^ 100 ≤ p) (h2 : p ≤ 2 ^ 100) {x y : ℝ}
    (hx : |x| ≤ 100 * p) (hy : |y| ≤ 100 * p) :
    ∃ rho, Dbl.div rnd (Dbl.sqrt rnd (Dbl.sumSq rnd (.fin x) (.fin y))) (.fin p) = .fin rho ∧ Spec.IsDouble rho ∧
      |rho| ≤ 2 ^ 10 := by
  have hp0 : 0 < p := lt_of_lt_of_le (by positivity) h1
  have hB : 100 * p ≤ 2 ^ 300 := by
    refine le_trans ?_ (two_pow_le (show 107 ≤ 300 by norm_num))
    rw [show 107 = 7 + 100 from rfl, pow_add]
    norm_num at h2 ⊢
    linarith
  obtain ⟨s, hs, -, hs0, hse⟩ := sumSq_near h hB hx hy
  have hq : ∀ z : ℝ, |z| ≤ 100 * p → z ^ 2 ≤ 10000 * p ^ 2 := fun z hz => by
    rw [← sq_abs]
    calc |z| ^ 2 ≤ (100 * p) ^ 2 := by gcongr
      _ = _ := by ring
  have hxx := hq x hx
  have hyy := hq y hy
  have hτ2 := tiny_sq h1
  have hs1 : s ≤ (200 * p) ^ 2 := by
    have h3 := (abs_le.1 hse).2
    have e2 : (p / 2 ^ 100) ^ 2 = p ^ 2 / 2 ^ 200 := by rw [div_pow, ← pow_mul]
    rw [e2] at hτ2
    have hp2 : 0 < p ^ 2 := by positivity
    rw [mul_pow]
    generalize (2 : ℝ) ^ (-1075 : ℤ) = τ at *
    generalize p ^ 2 = P at *
    generalize x ^ 2 = X at *
    generalize y ^ 2 = Y at *
    norm_num at h3 hτ2 ⊢
    linarith
  have hsq : Real.sqrt s ≤ 200 * p := by
    rw [Real.sqrt_le_left (by positivity)]
    exact hs1
  have hsq0 := Real.sqrt_nonneg s
  have h200 : 200 * p ≤ 2 ^ 900 := by
    refine le_trans ?_ (two_pow_le (show 108 ≤ 900 by norm_num))
    rw [show 108 = 8 + 100 from rfl, pow_add]
    norm_num at h2 ⊢
    linarith
  obtain ⟨r, hr, -, hre⟩ := round_rel h (y := Real.sqrt s) (by rw [abs_of_nonneg hsq0]; exact hsq.trans h200)
  rw [abs_of_nonneg hsq0] at hre
  have hrb : |r| ≤ 256 * p := by
    have e : |r| ≤ |r - Real.sqrt s| + |Real.sqrt s| := by
      have := abs_add_le (r - Real.sqrt s) (Real.sqrt s)
      rwa [sub_add_cancel] at this
    rw [abs_of_nonneg hsq0] at e
    have hτ := tiny_rel h1
    have h7 : Real.sqrt s / 2 ^ 53 ≤ 200 * p / 2 ^ 53 := by gcongr
    generalize (2 : ℝ) ^ (-1075 : ℤ) = τ at *
    generalize Real.sqrt s / 2 ^ 53 = R at *
    norm_num at h7 hτ
    linarith
  obtain ⟨rho, h3, h4, h5⟩ := bounded_round h (y := r / p) (a := 8) (by norm_num) (by
    rw [abs_div, abs_of_pos hp0, div_le_iff₀ hp0]
    norm_num
    exact hrb)
  refine ⟨rho, ?_, h4, h5.trans (two_pow_le (by norm_num))⟩
  have e1 : Dbl.sqrt rnd (.fin s) = .fin r := by
    have : Fl.sqrt (.fin s) = .fin (Real.sqrt s) := if_neg (not_lt.2 hs0)
    unfold Dbl.sqrt
    rw [this]
    exact hr
  have e2 : Fl.div (.fin r) (.fin p) = .fin (r / p) := if_neg hp0.ne'
  rw [hs, e1]
  unfold Dbl.div
  rw [e2]
  exact h3

/-! ## The phase at one pixel -/

theorem ofInt_two {rnd : ℝ → Fl} (h : Spec.Rounding rnd) : Dbl.ofInt rnd 2 = .fin 2 := by
  have := round_self h (isDouble_int (z := 2) (by norm_num))
  unfold Dbl.ofInt
  rw [this]
  norm_num

theorem pi_near {rnd : ℝ → Fl} (h : Spec.Rounding rnd) :
    ∃ π', rnd Real.pi = .fin π' ∧ Spec.IsDouble π' ∧ |π' - Real.pi| ≤ 4 / 2 ^ 53 ∧ |π'| ≤ 4 := by
  have hπ2 := Real.pi_lt_d2
  have hπ0 := Real.pi_pos
  obtain ⟨π', hπ, hπd, hπe⟩ := round_rel h (y := Real.pi) (by
    rw [abs_of_pos hπ0]
    refine le_trans (?_ : Real.pi ≤ 2 ^ 2) (two_pow_le (show 2 ≤ 900 by norm_num))
    norm_num at hπ2 ⊢
    linarith)
  rw [abs_of_pos hπ0] at hπe
  have hτ1 := tiny_le (k := -1075) (by norm_num)
  have hπe' : |π' - Real.pi| ≤ 4 / 2 ^ 53 := by
    refine hπe.trans ?_
    generalize (2 : ℝ) ^ (-1075 : ℤ) = τ at *
    norm_num at hτ1 ⊢
    linarith
  refine ⟨π', hπ, hπd, hπe', ?_⟩
  have := abs_add_le (π' - Real.pi) Real.pi
  rw [sub_add_cancel, abs_of_pos hπ0] at this
  norm_num at hπe'
  linarith

theorem phasePt_bounded {rnd : ℝ → Fl} (h : Spec.Rounding rnd) {w d : Fl} {wavel : ℝ} (hw : Bounded 600 w)
    (hd : Bounded 300 d) (hl : 1 / 2 ^ 100 ≤ wavel) : Bounded 610 (Dbl.phasePt rnd w d (.fin wavel)) := by
  obtain ⟨π', hπ, hπd, -, hπ4⟩ := pi_near h
  have h1 := bounded_div h (by norm_num) hd hl
  have h2 := bounded_add h (by norm_num) hw (h1.mono (by norm_num))
  have h3 := bounded_mul h (by norm_num) h2 (⟨2, ofInt_two h, isDouble_two_mul (p := 1) (by
    simpa using isDouble_of_dvd (one_dvd (Nat.factorial 20))) (by norm_num) |> (by simpa using ·), by norm_num⟩ :
      Bounded 1 (Dbl.ofInt rnd 2))
  have h4 := bounded_mul h (b := 2) (by norm_num) h3 ⟨π', hπ, hπd, hπ4.trans (by norm_num)⟩
  exact h4.mono (by norm_num)

/-- The phase is as good as the wavefront and the path difference. -/
theorem phasePt_near {rnd : ℝ → Fl} (h : Spec.Rounding rnd) {w W d δ wavel eW eD M : ℝ} (hl0 : 0 < wavel)
    (hM : M ≤ 2 ^ 210) (hw : |w| ≤ M) (hd : |d / wavel| ≤ M)
    (hwe : |w - W| ≤ eW) (hde : |d - δ| ≤ eD * wavel) :
    ∃ f, Dbl.phasePt rnd (.fin w) (.fin d) (.fin wavel) = .fin f ∧ Spec.IsDouble f ∧
      |f - (W + δ / wavel) * 2 * Real.pi| ≤ 7 * (eW + eD) + M / 2 ^ 45 + 2 ^ (-1069 : ℤ) := by
  have hτ0 : (0 : ℝ) < 2 ^ (-1075 : ℤ) := by positivity
  have hτ1 := tiny_le (k := -1075) (by norm_num)
  have hT : (2 : ℝ) ^ (-1069 : ℤ) = 64 * 2 ^ (-1075 : ℤ) := by
    rw [show (-1069 : ℤ) = 6 + -1075 by norm_num, zpow_add₀ two_ne_zero]
    norm_num
  have hM0 : 0 ≤ M := (abs_nonneg _).trans hw
  have hbig : ∀ {k : ℝ}, k ≤ 64 * M + 1 → k ≤ 2 ^ 900 := fun {k} hk => by
    refine hk.trans (le_trans ?_ (two_pow_le (show 217 ≤ 900 by norm_num)))
    rw [show 217 = 7 + 210 from rfl, pow_add]
    have : (1 : ℝ) ≤ 2 ^ 210 := one_le_pow₀ one_le_two
    generalize (2 : ℝ) ^ 210 = A at *
    norm_num
    linarith
  obtain ⟨π', hπ, -, hπe, hπ4⟩ := pi_near h
  have hπ2 := Real.pi_lt_d2
  have hπ0 := Real.pi_pos
  -- the quotient
  obtain ⟨g, hg, -, hge⟩ := round_rel h (y := d / wavel) (hbig (by linarith))
  have hgM : |g| ≤ 2 * M + 2 ^ (-1075 : ℤ) := by
    have e : |g| ≤ |g - d / wavel| + |d / wavel| := by
      have := abs_add_le (g - d / wavel) (d / wavel)
      rwa [sub_add_cancel] at this
    generalize (2 : ℝ) ^ (-1075 : ℤ) = τ at *
    norm_num at hge
    linarith
  have hgδ : |g - δ / wavel| ≤ eD + M / 2 ^ 53 + 2 ^ (-1075 : ℤ) := by
    have e : g - δ / wavel = (g - d / wavel) + (d - δ) / wavel := by ring
    have e2 : |(d - δ) / wavel| ≤ eD := by
      rw [abs_div, abs_of_pos hl0, div_le_iff₀ hl0]
      exact hde
    have e3 : |d / wavel| / 2 ^ 53 ≤ M / 2 ^ 53 := by gcongr
    rw [e]
    refine (abs_add_le _ _).trans ?_
    linarith
  -- the sum
  have hτ1' : (2 : ℝ) ^ (-1075 : ℤ) ≤ 1 := by
    refine hτ1.trans (by norm_num)
  obtain ⟨s, hs, -, hse⟩ := round_rel h (y := w + g) (hbig (by linarith [abs_add_le w g]))
  have hwg : |w + g| ≤ 3 * M + 2 ^ (-1075 : ℤ) := by linarith [abs_add_le w g]
  have hse' : |s - (w + g)| ≤ (3 * M + 2 ^ (-1075 : ℤ)) / 2 ^ 53 + 2 ^ (-1075 : ℤ) := hse.trans (by gcongr)
  have hsM : |s| ≤ 4 * M + 3 * 2 ^ (-1075 : ℤ) := by
    have e : |s| ≤ |s - (w + g)| + |w + g| := by
      have := abs_add_le (s - (w + g)) (w + g)
      rwa [sub_add_cancel] at this
    generalize (2 : ℝ) ^ (-1075 : ℤ) = τ at *
    norm_num at hse'
    linarith
  have hsV : |s - (W + δ / wavel)| ≤ eW + eD + 8 * M / 2 ^ 53 + 3 * 2 ^ (-1075 : ℤ) := by
    have e : s - (W + δ / wavel) = (s - (w + g)) + ((w - W) + (g - δ / wavel)) := by ring
    rw [e]
    refine (abs_add_le _ _).trans ((add_le_add hse' ((abs_add_le _ _).trans (add_le_add hwe hgδ))).trans ?_)
    generalize (2 : ℝ) ^ (-1075 : ℤ) = τ at *
    norm_num
    linarith
  -- twice
  have h2s : |s * 2| ≤ 8 * M + 6 * 2 ^ (-1075 : ℤ) := by
    rw [abs_mul, abs_two]
    linarith
  obtain ⟨a, ha, -, hae⟩ := round_rel h (y := s * 2) (hbig (by linarith))
  have hae' : |a - s * 2| ≤ (8 * M + 6 * 2 ^ (-1075 : ℤ)) / 2 ^ 53 + 2 ^ (-1075 : ℤ) := hae.trans (by gcongr)
  have haM : |a| ≤ 9 * M + 8 * 2 ^ (-1075 : ℤ) := by
    have e : |a| ≤ |a - s * 2| + |s * 2| := by
      have := abs_add_le (a - s * 2) (s * 2)
      rwa [sub_add_cancel] at this
    generalize (2 : ℝ) ^ (-1075 : ℤ) = τ at *
    norm_num at hae'
    linarith
  -- the factor π
  have haπ : |a * π'| ≤ 36 * M + 32 * 2 ^ (-1075 : ℤ) := by
    rw [abs_mul]
    have : |a| * |π'| ≤ |a| * 4 := by gcongr
    linarith
  obtain ⟨f, hf, hfd, hfe⟩ := round_rel h (y := a * π') (hbig (by
    generalize (2 : ℝ) ^ (-1075 : ℤ) = τ at *
    norm_num at hτ1
    linarith))
  refine ⟨f, ?_, hfd, ?_⟩
  · have e1 : Fl.div (.fin d) (.fin wavel) = .fin (d / wavel) := if_neg hl0.ne'
    unfold Dbl.phasePt
    rw [ofInt_two h, hπ]
    simp only [Dbl.mul, Dbl.add, Dbl.div, e1, Dbl.rop, hg, Fl.add, hs, Fl.mul, ha, hf]
  · have e : f - (W + δ / wavel) * 2 * Real.pi =
        (f - a * π') + (a * (π' - Real.pi) + ((a - s * 2) * Real.pi + 2 * ((s - (W + δ / wavel)) * Real.pi))) := by ring
    have t1 : |a * (π' - Real.pi)| ≤ (9 * M + 8 * 2 ^ (-1075 : ℤ)) * (4 / 2 ^ 53) := by
      rw [abs_mul]
      exact mul_le_mul haM hπe (abs_nonneg _) (by positivity)
    have t2 : |(a - s * 2) * Real.pi| ≤ ((8 * M + 6 * 2 ^ (-1075 : ℤ)) / 2 ^ 53 + 2 ^ (-1075 : ℤ)) * 3.15 := by
      rw [abs_mul, abs_of_pos hπ0]
      exact mul_le_mul hae' hπ2.le hπ0.le (by positivity)
    have hE0 : 0 ≤ eW + eD + 8 * M / 2 ^ 53 + 3 * 2 ^ (-1075 : ℤ) := (abs_nonneg _).trans hsV
    have t3 : |2 * ((s - (W + δ / wavel)) * Real.pi)| ≤
        2 * ((eW + eD + 8 * M / 2 ^ 53 + 3 * 2 ^ (-1075 : ℤ)) * 3.15) := by
      rw [abs_mul, abs_two, abs_mul, abs_of_pos hπ0]
      exact mul_le_mul_of_nonneg_left (mul_le_mul hsV hπ2.le hπ0.le hE0) (by norm_num)
    have t4 : |f - a * π'| ≤ (36 * M + 32 * 2 ^ (-1075 : ℤ)) / 2 ^ 53 + 2 ^ (-1075 : ℤ) := hfe.trans (by gcongr)
    have heW : 0 ≤ eW := (abs_nonneg _).trans hwe
    have heD : 0 ≤ eD := nonneg_of_mul_nonneg_left ((abs_nonneg _).trans hde) hl0
    rw [e, hT]
    refine (abs_add_le _ _).trans ((add_le_add t4 ((abs_add_le _ _).trans (add_le_add t1
      ((abs_add_le _ _).trans (add_le_add t2 t3))))).trans ?_)
    clear t1 t2 t3 t4 hbig hM
    generalize (2 : ℝ) ^ (-1075 : ℤ) = τ at *
    norm_num
    linarith

/-! ## The field at one pixel -/

/-- The two doubles of a complex number. -/
def Spec.cx (z : ℂ) : Dbl.Cx := (.fin z.re, .fin z.im)

/-- Both parts are doubles. -/
def Spec.CDouble (z : ℂ) : Prop := Spec.IsDouble z.re ∧ Spec.IsDouble z.im

theorem field_dark {rnd : ℝ → Fl} (h : Spec.Rounding rnd) {L : Dbl.LibmC} (hL : Spec.AccurateC L) {e : ℝ} {phi : Fl}
    {a : ℕ} (hphi : Bounded a phi) : Dbl.fieldPt rnd L (.fin 0) (.fin e) phi = Spec.cx 0 := by
  obtain ⟨f, rfl, hf, -⟩ := hphi
  obtain ⟨c, s, hcs, -⟩ := hL.expI f hf
  unfold Dbl.fieldPt Dbl.rmul
  rw [hcs]
  simp only [Dbl.mul, Fl.mul, Dbl.rop, zero_mul, rnd_zero h, Spec.cx, Complex.zero_re, Complex.zero_im]

theorem field_near {rnd : ℝ → Fl} (h : Spec.Rounding rnd) {L : Dbl.LibmC} (hL : Spec.AccurateC L) {e A f φ : ℝ}
    (he : Spec.IsDouble e) (heb : |e| ≤ 2 ^ 300) (hf : Spec.IsDouble f) :
    ∃ z, Dbl.fieldPt rnd L (.fin 1) (.fin e) (.fin f) = Spec.cx z ∧ Spec.CDouble z ∧ ‖z‖ ≤ 2 ^ 303 ∧
      ‖z - A * Complex.exp (φ * Complex.I)‖ ≤ |A| * (|f - φ| + 1 / 2 ^ 49) + 2 * |e - A| + 2 ^ (-1074 : ℤ) := by
  obtain ⟨c, s, hcs, hcd, hsd, hc1, hs1, hce, hse⟩ := hL.expI f hf
  have hr : ∀ t : ℝ, |t| ≤ 1 → ∃ z, Dbl.mul rnd (.fin e) (.fin t) = .fin z ∧ Spec.IsDouble z ∧
      |z - e * t| ≤ |e| / 2 ^ 53 + 2 ^ (-1075 : ℤ) := by
    intro t ht
    have het : |e * t| ≤ |e| := by
      rw [abs_mul]
      exact mul_le_of_le_one_right (abs_nonneg e) ht
    obtain ⟨z, h1, h2, h3⟩ := round_rel h (y := e * t) (het.trans (heb.trans (two_pow_le (by norm_num))))
    exact ⟨z, h1, h2, h3.trans (by gcongr)⟩
  obtain ⟨z1, a1, a2, a3⟩ := hr c hc1
  obtain ⟨z2, b1, b2, b3⟩ := hr s hs1
  have hbd : ∀ t z : ℝ, |t| ≤ 1 → |z - e * t| ≤ |e| / 2 ^ 53 + 2 ^ (-1075 : ℤ) → |z| ≤ 2 ^ 302 := by
    intro t z ht hz
    have het : |e * t| ≤ |e| := by
      rw [abs_mul]
      exact mul_le_of_le_one_right (abs_nonneg e) ht
    have e1 : |z| ≤ |z - e * t| + |e * t| := by
      have := abs_add_le (z - e * t) (e * t)
      rwa [sub_add_cancel] at this
    have hτ := tiny_le (k := -1075) (by norm_num)
    have h5 : (1 : ℝ) ≤ 2 ^ 300 := one_le_pow₀ one_le_two
    rw [show (2 : ℝ) ^ 302 = 4 * 2 ^ 300 by rw [show 302 = 2 + 300 from rfl, pow_add]; norm_num]
    generalize (2 : ℝ) ^ 300 = U at *
    generalize (2 : ℝ) ^ (-1075 : ℤ) = τ at *
    norm_num at hz hτ
    linarith
  refine ⟨⟨z1, z2⟩, ?_, ⟨a2, b2⟩, ?_, ?_⟩
  rotate_left
  · refine (Complex.norm_le_abs_re_add_abs_im _).trans ?_
    rw [show (2 : ℝ) ^ 303 = 2 ^ 302 + 2 ^ 302 by rw [pow_succ]; ring]
    exact add_le_add (hbd c z1 hc1 a3) (hbd s z2 hs1 b3)
  rotate_left
  · have h1e : Dbl.mul rnd (.fin 1) (.fin e) = .fin e := by
      simp only [Dbl.mul, Fl.mul, Dbl.rop, one_mul, round_self h he]
    unfold Dbl.fieldPt Dbl.rmul
    rw [h1e, hcs]
    simp only [a1, b1, Spec.cx]
  · have e0 : (⟨z1, z2⟩ : ℂ) - A * Complex.exp (φ * Complex.I) =
        (⟨z1 - e * c, z2 - e * s⟩ : ℂ) + ((e : ℂ) * (⟨c - Real.cos f, s - Real.sin f⟩ : ℂ) +
          (((e - A : ℝ) : ℂ) * Complex.exp (f * Complex.I) +
            (A : ℂ) * (Complex.exp (φ * Complex.I) * (Complex.exp (Complex.I * ((f - φ : ℝ) : ℂ)) - 1)))) := by
      have e1 : Complex.exp (φ * Complex.I) * (Complex.exp (Complex.I * ((f - φ : ℝ) : ℂ)) - 1) =
          Complex.exp (f * Complex.I) - Complex.exp (φ * Complex.I) := by
        rw [mul_sub, ← Complex.exp_add, mul_one]
        congr 2
        push_cast
        ring
      rw [e1]
      have e2 : (⟨c - Real.cos f, s - Real.sin f⟩ : ℂ) = (⟨c, s⟩ : ℂ) - Complex.exp (f * Complex.I) := by
        apply Complex.ext
        · simp [Complex.exp_ofReal_mul_I_re]
        · simp [Complex.exp_ofReal_mul_I_im]
      have e3 : (⟨z1 - e * c, z2 - e * s⟩ : ℂ) = (⟨z1, z2⟩ : ℂ) - (e : ℂ) * ⟨c, s⟩ := by
        apply Complex.ext <;> simp
      rw [e2, e3]
      push_cast
      ring
    have n1 : ‖(⟨z1 - e * c, z2 - e * s⟩ : ℂ)‖ ≤ 2 * (|e| / 2 ^ 53 + 2 ^ (-1075 : ℤ)) :=
      (Complex.norm_le_abs_re_add_abs_im _).trans ((add_le_add a3 b3).trans_eq (by ring))
    have n2 : ‖(e : ℂ) * (⟨c - Real.cos f, s - Real.sin f⟩ : ℂ)‖ ≤ |e| * (2 / 2 ^ 51) := by
      rw [norm_mul, Complex.norm_real, Real.norm_eq_abs]
      refine mul_le_mul_of_nonneg_left ((Complex.norm_le_abs_re_add_abs_im _).trans ?_) (abs_nonneg e)
      exact (add_le_add hce hse).trans_eq (by ring)
    have n3 : ‖((e - A : ℝ) : ℂ) * Complex.exp (f * Complex.I)‖ ≤ |e - A| := by
      rw [norm_mul, Complex.norm_real, Real.norm_eq_abs, Complex.norm_exp_ofReal_mul_I, mul_one]
    have n4 : ‖(A : ℂ) * (Complex.exp (φ * Complex.I) * (Complex.exp (Complex.I * ((f - φ : ℝ) : ℂ)) - 1))‖ ≤
        |A| * |f - φ| := by
      rw [norm_mul, norm_mul, Complex.norm_real, Real.norm_eq_abs, Complex.norm_exp_ofReal_mul_I, one_mul]
      refine mul_le_mul_of_nonneg_left ?_ (abs_nonneg A)
      exact Real.norm_exp_I_mul_ofReal_sub_one_le.trans_eq (Real.norm_eq_abs _)
    have hee : |e| ≤ |A| + |e - A| := by
      have := abs_add_le (e - A) A
      rw [sub_add_cancel] at this
      linarith
    have hT : (2 : ℝ) ^ (-1074 : ℤ) = 2 * 2 ^ (-1075 : ℤ) := by
      rw [show (-1074 : ℤ) = 1 + -1075 by norm_num, zpow_add₀ two_ne_zero]
      norm_num
    rw [e0, hT]
    refine (norm_add_le _ _).trans ((add_le_add n1 ((norm_add_le _ _).trans (add_le_add n2
      ((norm_add_le _ _).trans (add_le_add n3 n4))))).trans ?_)
    have e5 : |A| * (|f - φ| + 1 / 2 ^ 49) = |A| * |f - φ| + |A| / 2 ^ 49 := by ring
    have := abs_nonneg (e - A)
    have := abs_nonneg A
    rw [e5]
    generalize |A| * |f - φ| = Q at *
    generalize (2 : ℝ) ^ (-1075 : ℤ) = τ at *
    norm_num
    linarith

/-! ## The aperture -/

/-- The functions of the user on doubles, at the nodes `xd`, `yd`, next to the exact ones at `x`, `y`: the same pixels
are lit, all of them inside the dish (no pixel so near to an edge that rounding moves it across); there the illumination
is right to `εa`, the path difference to `εd` wavelengths, and the latter is at most `D` wavelengths. -/
structure Spec.SameOptics {ι : Type} (tel : TelGeo ι) (illum : Illum ι) (telD : Dbl.TelGeo ι) (illumD : Dbl.Illum ι)
    (x y : ι → ℝ) (xd yd : ι → Fl) (I : List ℝ) (dz wavel εa εd D : ℝ) (B Ea delta : ι → ℝ) : Prop where
  pr : telD.pr = .fin tel.pr
  block : tel.block x y = .ok B
  blockD : telD.block xd yd = .ok fun q => .fin (B q)
  lit : ∀ q, B q = 0 ∨ (B q = 1 ∧ x q ^ 2 + y q ^ 2 ≤ tel.pr ^ 2 * (1 - 1 / 2 ^ 40))
  illum : illum x y I tel.pr = .ok Ea
  illumD : ∃ e : ι → ℝ, illumD xd yd (I.map .fin) (.fin tel.pr) = .ok (fun q => .fin (e q)) ∧
    ∀ q, Spec.IsDouble (e q) ∧ |e q| ≤ 2 ^ 300 ∧ (B q = 1 → |e q - Ea q| ≤ εa)
  opd : tel.opd x y dz = .ok delta
  opdD : ∃ d : ι → ℝ, telD.opd xd yd (.fin dz) = .ok (fun q => .fin (d q)) ∧
    ∀ q, Spec.IsDouble (d q) ∧ |d q| ≤ 2 ^ 300 ∧ (B q = 1 → |delta q| ≤ D * wavel ∧ |d q - delta q| ≤ εd * wavel)

/-- The relative error of the aperture field: the wavefront, the path difference, the operations. -/
noncomputable def Spec.fieldError (n : ℕ) (K : List ℝ) (D εd : ℝ) : ℝ :=
  (1 + Real.sqrt 2) ^ n / 2 ^ 34 * (K.map fun k => |k|).sum + D / 2 ^ 45 + 8 * εd + 1 / 2 ^ 48

/-- Points of the dish stay inside. -/
theorem inside_near {p x y g k s P : ℝ} (hp0 : 0 < p) (h1 : 1 / 2 ^ 100 ≤ p) (hP : |P - p ^ 2| ≤ p ^ 2 / 2 ^ 53)
    (hin : x ^ 2 + y ^ 2 ≤ p ^ 2 * (1 - 1 / 2 ^ 40)) (hg : |g - x| ≤ 448 * p / 2 ^ 53) (hk : |k - y| ≤ 448 * p / 2 ^ 53)
    (hs : |s - (g ^ 2 + k ^ 2)| ≤ 3 * (g ^ 2 + k ^ 2) / 2 ^ 53 + 4 * 2 ^ (-1075 : ℤ)) :
    s ≤ P ∧ Real.sqrt (g ^ 2 + k ^ 2) ≤ 2 * p := by
  have hp2 : 0 < p ^ 2 := by positivity
  have hle : x ^ 2 + y ^ 2 ≤ p ^ 2 := hin.trans (by norm_num; linarith)
  have hab : ∀ u v z : ℝ, u ^ 2 + v ^ 2 ≤ p ^ 2 → |z - u| ≤ 448 * p / 2 ^ 53 → z ^ 2 ≤ u ^ 2 + 1000 * p ^ 2 / 2 ^ 53 := by
    intro u v z huv hz
    have hu : |u| ≤ p := abs_le_of_sq_le_sq (by nlinarith [sq_nonneg v]) hp0.le
    have hz2 : |z + u| ≤ 2.1 * p := by
      have e : z + u = (z - u) + (u + u) := by ring
      rw [e]
      refine (abs_add_le _ _).trans ((add_le_add hz (abs_add_le _ _)).trans ?_)
      norm_num
      linarith
    have e : z ^ 2 - u ^ 2 ≤ 2.1 * p * (448 * p / 2 ^ 53) := by
      rw [sq_sub_sq]
      refine (le_abs_self _).trans ?_
      rw [abs_mul]
      exact mul_le_mul hz2 hz (abs_nonneg _) (by positivity)
    have e2 : 2.1 * p * (448 * p / 2 ^ 53) ≤ 1000 * p ^ 2 / 2 ^ 53 := by
      rw [show 2.1 * p * (448 * p / 2 ^ 53) = 940.8 * p ^ 2 / 2 ^ 53 by ring]
      gcongr
      norm_num
    linarith
  have a1 := hab x y g hle hg
  have a2 := hab y x k (by linarith) hk
  have hτ2 := tiny_sq h1
  have e2 : (p / 2 ^ 100) ^ 2 = p ^ 2 / 2 ^ 200 := by rw [div_pow, ← pow_mul]
  rw [e2] at hτ2
  have hs2 := (abs_le.1 hs).2
  have hP1 := (abs_le.1 hP).1
  constructor
  · generalize (2 : ℝ) ^ (-1075 : ℤ) = τ at *
    generalize p ^ 2 = Q at *
    generalize x ^ 2 = X at *
    generalize y ^ 2 = Y at *
    generalize g ^ 2 = G at *
    generalize k ^ 2 = H at *
    norm_num at hs2 hP1 hin a1 a2 hτ2
    linarith
  · rw [Real.sqrt_le_left (by positivity), mul_pow]
    norm_num at a1 a2 ⊢
    linarith

/-- **C124.**  The aperture in doubles.  Neither program raises.  A pixel that is not lit gives exactly 0; the error of
a lit one is at most `Spec.fieldError` times the field there, twice the error of the illumination and an underflow. -/
theorem C124_aperture {rnd : ℝ → Fl} (h : Spec.Rounding rnd) {L : Dbl.LibmC} (hL : Spec.AccurateC L) (n : ℕ)
    (hn : n ≤ 20) (K : List ℝ) (hK : K.length = (n + 1) * (n + 2) / 2) (hKd : ∀ k ∈ K, Spec.IsDouble k)
    (hKs : (K.map fun k => |k|).sum ≤ 2 ^ 200) {ι : Type} (tel : TelGeo ι) (illum : Illum ι) (telD : Dbl.TelGeo ι)
    (illumD : Dbl.Illum ι) (hp : Spec.IsDouble tel.pr) (h1 : 1 / 2 ^ 100 ≤ tel.pr) (h2 : tel.pr ≤ 2 ^ 100)
    (x y g k : ι → ℝ) (hgd : ∀ q, Spec.IsDouble (g q) ∧ Spec.IsDouble (k q))
    (hg : ∀ q, |g q - x q| ≤ 448 * tel.pr / 2 ^ 53 ∧ |k q - y q| ≤ 448 * tel.pr / 2 ^ 53)
    (hbox : ∀ q, |x q| ≤ 64 * tel.pr ∧ |y q| ≤ 64 * tel.pr) (I : List ℝ) (dz wavel εa εd D : ℝ)
    (hl : 1 / 2 ^ 100 ≤ wavel) (hD0 : 0 ≤ D) (hD : D ≤ 2 ^ 200) (hε0 : 0 ≤ εd) (hε : εd ≤ 1) (B Ea delta : ι → ℝ)
    (hO : Spec.SameOptics tel illum telD illumD x y (fun q => .fin (g q)) (fun q => .fin (k q)) I dz wavel εa εd D B Ea
      delta) :
    ∃ E Ed : ι → ℂ, Aperture.aperture x y I K dz wavel illum tel = .ok E ∧
      Dbl.aperture rnd L (fun q => .fin (g q)) (fun q => .fin (k q)) (I.map .fin) (K.map .fin) (.fin dz) (.fin wavel)
        illumD telD = .ok (fun q => Spec.cx (Ed q)) ∧
      (∀ q, Spec.CDouble (Ed q) ∧ ‖Ed q‖ ≤ 2 ^ 303) ∧ (∀ q, B q = 0 → E q = 0 ∧ Ed q = 0) ∧
      ∀ q, B q = 1 → ‖E q‖ = |Ea q| ∧
        ‖Ed q - E q‖ ≤ ‖E q‖ * Spec.fieldError n K D εd + 2 * εa + 2 ^ (-1074 : ℤ) := by
  have hp0 : 0 < tel.pr := lt_of_lt_of_le (by positivity) h1
  have hl0 : 0 < wavel := lt_of_lt_of_le (by positivity) hl
  have hK' : K.length = tri (n + 1) := hK
  have hS0 : 0 ≤ (K.map fun k => |k|).sum := List.sum_nonneg (by simp)
  have hKb : ∀ k ∈ K, |k| ≤ 2 ^ 200 := fun k hk =>
    (List.single_le_sum (by simp) _ (List.mem_map_of_mem (f := fun k : ℝ => |k|) hk)).trans hKs
  set S := (K.map fun k => |k|).sum with hS
  obtain ⟨hX1, hX2⟩ := sqrt_two_pow hn
  set Z := (1 + Real.sqrt 2) ^ n with hZ
  obtain ⟨e, hie, he⟩ := hO.illumD
  obtain ⟨d, hod, hd⟩ := hO.opdD
  obtain ⟨P, hP, hP0, hPe⟩ := rimSq_near h h1 h2
  -- the grid
  have hgb : ∀ q, |g q| ≤ 100 * tel.pr ∧ |k q| ≤ 100 * tel.pr := by
    intro q
    have hone : ∀ u v : ℝ, |u - v| ≤ 448 * tel.pr / 2 ^ 53 → |v| ≤ 64 * tel.pr → |u| ≤ 100 * tel.pr := by
      intro u v h3 h4
      have e : |u| ≤ |u - v| + |v| := by
        have := abs_add_le (u - v) v
        rwa [sub_add_cancel] at this
      norm_num at h3
      linarith
    exact ⟨hone _ _ (hg q).1 (hbox q).1, hone _ _ (hg q).2 (hbox q).2⟩
  -- the wavefront
  have hWex : ∀ q, ∃ w, Dbl.wavefront rnd L.toLibm
      (Dbl.div rnd (Dbl.sqrt rnd (Dbl.sumSq rnd (.fin (g q)) (.fin (k q)))) (.fin tel.pr))
      (L.arctan2 (.fin (k q)) (.fin (g q))) (K.map .fin) = .ok w ∧ Bounded 600 w := by
    intro q
    obtain ⟨rho, hr, hrd, hrb⟩ := radius_bounded h h1 h2 (hgb q).1 (hgb q).2
    obtain ⟨t, ht, htd, ht4, -⟩ := hL.base.arctan2 (g q) (k q) (hgd q).1 (hgd q).2
    rw [hr, ht]
    exact wavefrontD_bounded h hL hn hK' hKd hKb hrd hrb htd ht4
  choose w hw hwb using hWex
  set W := fun q => wfVal n K (Real.sqrt (x q ^ 2 + y q ^ 2) / tel.pr) (Np.arctan2 (y q) (x q)) with hWdef
  set phi := fun q => (W q + delta q / wavel) * 2 * Real.pi with hphi
  -- the pixels
  have hpix : ∀ q, ∃ z : ℂ, Dbl.fieldPt rnd L (.fin (B q)) (.fin (e q)) (Dbl.phasePt rnd (w q) (.fin (d q)) (.fin wavel)) =
      Spec.cx z ∧ (Spec.CDouble z ∧ ‖z‖ ≤ 2 ^ 303) ∧ (B q = 0 → z = 0) ∧
      (B q = 1 → ‖z - Ea q * Complex.exp (phi q * Complex.I)‖ ≤
        |Ea q| * Spec.fieldError n K D εd + 2 * εa + 2 ^ (-1074 : ℤ)) := by
    intro q
    rcases hO.lit q with hB | ⟨hB, hin⟩
    · refine ⟨0, ?_, ⟨⟨isDouble_zero, isDouble_zero⟩, by simp⟩, fun _ => rfl, fun hB' => absurd (hB.symm.trans hB') zero_ne_one⟩
      rw [hB]
      exact field_dark h hL (phasePt_bounded h (hwb q) ⟨d q, rfl, (hd q).1, (hd q).2.1⟩ hl)
    · have hB5 : 100 * tel.pr ≤ 2 ^ 300 := by
        refine le_trans ?_ (two_pow_le (show 107 ≤ 300 by norm_num))
        rw [show 107 = 7 + 100 from rfl, pow_add]
        norm_num at h2 ⊢
        linarith
      obtain ⟨s, hs, -, hs0, hse⟩ := sumSq_near h hB5 (hgb q).1 (hgb q).2
      obtain ⟨hsP, hr2⟩ := inside_near hp0 h1 hPe hin (hg q).1 (hg q).2 hse
      obtain ⟨rho, hrho, hrd, hr0, hre, hr1⟩ := radius_near h hp h1 h2 hPe hP0
        (Real.sqrt_nonneg (g q ^ 2 + k q ^ 2)) hr2 hs0 (by rw [Real.sq_sqrt (by positivity)]; exact hse)
      obtain ⟨w', hw1, hw2, hw3⟩ := pixel_near_of h hL.base hn hK' hKd hKs hp0 (c := 448) (by norm_num) (hgd q).1 (hgd q).2
        (hg q).1 (hg q).2 hr2 hrd hr0 (hr1 hsP) hre
      have hww := hw q
      rw [hs, hrho, hw1] at hww
      injection hww with hww
      obtain ⟨hdel, hde⟩ := (hd q).2.2 hB
      have hτ := tiny_le (k := -1065) (by norm_num)
      have hτ0 : (0 : ℝ) < 2 ^ (-1065 : ℤ) := by positivity
      have hτ9 := tiny_le (k := -1069) (by norm_num)
      have hdw : |d q / wavel| ≤ D + εd := by
        rw [abs_div, abs_of_pos hl0, div_le_iff₀ hl0]
        have := abs_add_le (d q - delta q) (delta q)
        rw [sub_add_cancel] at this
        linarith
      obtain ⟨f, hf, hfd, hfe⟩ := phasePt_near h (M := 2 * S + (D + εd) + 2 ^ (-1065 : ℤ)) hl0 (by
        have : (2 : ℝ) ^ 210 = 1024 * 2 ^ 200 := by rw [show 210 = 10 + 200 from rfl, pow_add]; norm_num
        rw [this]
        have h5 : (1 : ℝ) ≤ 2 ^ 200 := one_le_pow₀ one_le_two
        generalize (2 : ℝ) ^ 200 = A at *
        generalize (2 : ℝ) ^ (-1065 : ℤ) = τ at *
        norm_num at hτ
        linarith) (hw2.trans (by linarith)) (hdw.trans (by linarith)) hw3 hde
      obtain ⟨z, hz1, hz2, hz4, hz3⟩ := field_near h hL (e := e q) (A := Ea q) (f := f) (φ := phi q) (he q).1 (he q).2.1 hfd
      refine ⟨z, ?_, ⟨hz2, hz4⟩, fun hB' => absurd (hB.symm.trans hB') one_ne_zero, fun _ => hz3.trans ?_⟩
      · rw [hB, ← hww, hf, hz1]
      · have hea := (he q).2.2 hB
        refine add_le_add (add_le_add (mul_le_mul_of_nonneg_left ?_ (abs_nonneg _)) (by linarith)) le_rfl
        unfold Spec.fieldError
        rw [← hS, ← hZ]
        refine (add_le_add hfe le_rfl).trans ?_
        have hZS : S ≤ Z * S := by nlinarith
        have e1 : Z * (1 / 2 ^ 43 + 40 * (30 + 2 * 448) / 2 ^ 53) * S = Z * S * (1 / 2 ^ 43 + 40 * (30 + 2 * 448) / 2 ^ 53) := by
          ring
        have e2 : Z / 2 ^ 34 * S = Z * S / 2 ^ 34 := by ring
        rw [e1, e2]
        generalize Z * S = Y at *
        generalize (2 : ℝ) ^ (-1065 : ℤ) = τ at *
        generalize (2 : ℝ) ^ (-1069 : ℤ) = τ' at *
        norm_num at hτ hτ9 ⊢
        linarith
  choose Ed hEd1 hEd2 hEd3 hEd4 using hpix
  refine ⟨fun q => ((B q * Ea q : ℝ) : ℂ) * Complex.exp ((phi q : ℂ) * Complex.I), Ed, ?_, ?_, hEd2, fun q hB => ⟨?_, hEd3 q hB⟩,
    fun q hB => ⟨?_, ?_⟩⟩
  · unfold Aperture.aperture
    rw [hO.block]
    simp only [bind, Except.bind, cart2pol]
    rw [wavefront_ok _ _ K n hK', hO.opd]
    simp only
    rw [hO.illum]
    rfl
  · unfold Dbl.aperture
    rw [hO.blockD, hO.pr, hod, hie]
    simp only [bind, Except.bind]
    rw [seqArr_ok _ w hw]
    refine congrArg Except.ok (funext fun q => hEd1 q)
  · simp [hB]
  · beta_reduce
    rw [hB, one_mul, norm_mul, Complex.norm_real, Real.norm_eq_abs, Complex.norm_exp_ofReal_mul_I, mul_one]
  · have hn1 : ‖((B q * Ea q : ℝ) : ℂ) * Complex.exp ((phi q : ℂ) * Complex.I)‖ = |Ea q| := by
      rw [hB, one_mul, norm_mul, Complex.norm_real, Real.norm_eq_abs, Complex.norm_exp_ofReal_mul_I, mul_one]
    have := hEd4 q hB
    beta_reduce
    rw [hn1, hB, one_mul]
    exact this

end Verif.Props
