import Verif.Props.Ambiguity
import Verif.Props.FocusError
import Verif.Props.Params
import Verif.Props.Residual

/-!
# Which maps a fit accepts (C149)
-/

namespace Verif.Props

open Verif Verif.Np Verif.Zernike Verif.Aperture Verif.Fourier Verif.Core Verif.Telgeometry Verif.MathFn Finset

variable {N M : ℕ}

/-- The distance of neighbouring pixels of the model beam, in radians. -/
noncomputable def Spec.beamPixel (pr bf wavel : ℝ) (N : ℕ) : ℝ := wavel * ((N : ℝ) - 1) / (2 * pr * bf * N)

/-- The coordinate `x` of a sample lies between the first and the last pixel of the model beam. -/
def Spec.InField (pr bf wavel : ℝ) (N : ℕ) (x : ℝ) : Prop :=
  -(((N / 2 : ℕ) : ℝ) * Spec.beamPixel pr bf wavel N) ≤ x ∧ x ≤ (((N - 1) / 2 : ℕ) : ℝ) * Spec.beamPixel pr bf wavel N

theorem beamPixel_pos (pr bf wavel : ℝ) (hN : 2 ≤ N) (hpr : 0 < pr) (hbf : 0 < bf) (hw : 0 < wavel) :
    0 < Spec.beamPixel pr bf wavel N := by
  have h2 : (2 : ℝ) ≤ N := by exact_mod_cast hN
  have : (0 : ℝ) < (N : ℝ) - 1 := by linarith
  unfold Spec.beamPixel
  positivity

theorem axis_pixel (pr bf wavel : ℝ) (hN : 2 ≤ N) (hpr : 0 < pr) (hbf : 0 < bf) (i : ℝ) :
    (i - ((N / 2 : ℕ) : ℝ)) / (N * (2 * (pr * bf) / ((N : ℝ) - 1))) * wavel =
      (i - ((N / 2 : ℕ) : ℝ)) * Spec.beamPixel pr bf wavel N := by
  have h2 : (2 : ℝ) ≤ N := by exact_mod_cast hN
  have h1 : (N : ℝ) - 1 ≠ 0 := by linarith
  have h0 : (N : ℝ) ≠ 0 := by linarith
  unfold Spec.beamPixel
  field_simp

theorem inGrid_field (pr bf wavel : ℝ) (hN : 2 ≤ N) (hpr : 0 < pr) (hbf : 0 < bf) (hw : 0 < wavel) (x : ℝ) :
    inGrid (fun i : Fin N => (((i : ℕ) : ℝ) - ((N / 2 : ℕ) : ℝ)) / (N * (2 * (pr * bf) / ((N : ℝ) - 1))) * wavel) x ↔
      Spec.InField pr bf wavel N x := by
  have hp := beamPixel_pos pr bf wavel hN hpr hbf hw
  simp only [inGrid, axis_pixel pr bf wavel hN hpr hbf, Spec.InField]
  constructor
  · rintro ⟨⟨k, hk⟩, l, hl⟩
    have hk0 : (0 : ℝ) ≤ ((k : ℕ) : ℝ) := Nat.cast_nonneg _
    have hl0 : ((l : ℕ) : ℝ) - ((N / 2 : ℕ) : ℝ) ≤ (((N - 1) / 2 : ℕ) : ℝ) := by
      have := l.isLt
      have h : (l : ℕ) ≤ (N - 1) / 2 + N / 2 := by omega
      have : ((l : ℕ) : ℝ) ≤ (((N - 1) / 2 : ℕ) : ℝ) + ((N / 2 : ℕ) : ℝ) := by exact_mod_cast h
      linarith
    constructor
    · nlinarith
    · nlinarith
  · rintro ⟨h1, h2⟩
    refine ⟨⟨⟨0, by omega⟩, ?_⟩, ⟨N - 1, by omega⟩, ?_⟩
    · refine le_trans (le_of_eq ?_) h1
      push_cast
      ring
    · have h : N - 1 = (N - 1) / 2 + N / 2 := by omega
      have e : ((N - 1 : ℕ) : ℝ) = (((N - 1) / 2 : ℕ) : ℝ) + ((N / 2 : ℕ) : ℝ) := by exact_mod_cast h
      refine h2.trans (le_of_eq ?_)
      simp only [e]
      ring

/-- **C149** the residual is computed if all samples lie in the field of the model beam, and refused with `ValueError`
otherwise; neither the coefficients nor the maps play a part. -/
theorem C149_accepts (hN : 2 ≤ N) (hM : 0 < M) (params : List ℝ) (n : ℕ) (hn : params.length = 5 + tri (n + 1))
    (beam : Fin 3 × Fin M → Fl) (u v : Fin 3 × Fin M → ℝ) (dz : Fin 3 → ℝ) (wavel : ℝ) (illum : Illum (Fin N × Fin N))
    (tel : TelGeo (Fin N × Fin N)) (bf : ℝ) (hpr : 0 < tel.pr) (hbf : 0 < bf) (hw : 0 < wavel)
    (B Ea : Fin N × Fin N → ℝ) (d : Fin 3 → Fin N × Fin N → ℝ)
    (hB : tel.block (fun q => Spec.gridPoint tel.pr bf N q.2) (fun q => Spec.gridPoint tel.pr bf N q.1) = .ok B)
    (hE : illum (fun q => Spec.gridPoint tel.pr bf N q.2) (fun q => Spec.gridPoint tel.pr bf N q.1) (params.take 5) tel.pr = .ok Ea)
    (hd : ∀ i, tel.opd (fun q => Spec.gridPoint tel.pr bf N q.2) (fun q => Spec.gridPoint tel.pr bf N q.1) (dz i) = .ok (d i)) :
    ((∀ q, Spec.InField tel.pr bf wavel N (u q) ∧ Spec.InField tel.pr bf wavel N (v q)) →
      ∃ r, residualTrue params beam u v dz wavel illum tel bf = .ok r) ∧
    ((∃ q, ¬ (Spec.InField tel.pr bf wavel N (u q) ∧ Spec.InField tel.pr bf wavel N (v q))) →
      residualTrue params beam u v dz wavel illum tel bf = .error .valueError) := by
  have hex : ∀ i, ∃ P, radiationPattern (params.take 5) (params.drop 5) (dz i) wavel illum tel bf = .ok P := by
    intro i
    rw [C14_ok_iff _ _ _ _ _ hN]
    simp only [linspace_grid]
    exact ⟨_, aperture_ok_iff.2 ⟨_, _, _, _, hB, wavefront_ok _ _ _ n (by simp [hn]), hd i, hE, rfl⟩⟩
  choose P hP using hex
  have hmono : ∀ i, StrictMono (P i).u ∧ StrictMono (P i).v := by
    intro i
    obtain ⟨h1, h2, -⟩ := C14_axes _ _ _ _ _ _ _ _ _ hpr hbf hw (hP i)
    exact ⟨h2, h1 ▸ h2⟩
  have hin : ∀ i x, (inGrid (P i).u x ↔ Spec.InField tel.pr bf wavel N x) ∧
      (inGrid (P i).v x ↔ Spec.InField tel.pr bf wavel N x) := by
    intro i x
    obtain ⟨-, E, -, hPi⟩ := radiationPattern_ok (hP i)
    rw [hPi]
    exact ⟨inGrid_field _ _ _ hN hpr hbf hw x, inGrid_field _ _ _ hN hpr hbf hw x⟩
  constructor
  · intro h
    have hrow : ∀ i, ∃ b, modelRow params u v dz wavel illum tel bf i = .ok b := fun i =>
      ⟨_, modelRow_ok.2 ⟨P i, hP i, (interpolator_ok_iff _ _ _ _ _).2
        ⟨hmono i, fun k => ⟨(hin i _).1.2 (h (i, k)).1, (hin i _).2.2 (h (i, k)).2⟩, rfl⟩⟩⟩
    choose b hb using hrow
    obtain ⟨nd, h1, -⟩ := C27_axis1 hM beam
    obtain ⟨nm, h2, -⟩ := C27_axis1 hM (fun q : Fin 3 × Fin M => Fl.fin (b q.1 q.2))
    exact ⟨_, residualTrue_ok.2 ⟨b, hb, nd, nm, h1, h2, rfl⟩⟩
  · rintro ⟨⟨i, k⟩, h⟩
    refine C43_outside params beam u v dz wavel illum tel bf P hP i k ?_
    rw [← (hin i _).1, ← (hin i _).2, not_and_or, inGrid, inGrid, not_and_or, not_and_or] at h
    push Not at h
    tauto

/-- **C149** the telescopes and illuminations of the package, and the residual that the optimiser calls, with any set of
excluded parameters: it is computed for every vector of parameters, or for none. -/
theorem C149_package (hN : 2 ≤ N) (hM : 0 < M) (cfg : Config) (S : List ℕ)
    (hex : cfg.excluded = S.map (fun e : ℕ => (e : ℤ))) (hS : S.Pairwise (· < ·)) (h7 : ∀ e ∈ S, e ≤ 7)
    (hf : cfg.fixed.length = 8) (n : ℕ) (hn : 1 ≤ n) (x : List ℝ) (hx : x.length + S.length = 5 + tri (n + 1))
    (beam : Fin 3 × Fin M → Fl) (u v : Fin 3 × Fin M → ℝ) (dz : Fin 3 → ℝ) (wavel : ℝ) (illum : Illum (Fin N × Fin N))
    (hi : illum = illumGauss ∨ illum = illumParabolic) (tel : TelGeo (Fin N × Fin N))
    (ht : (∃ pr sr l L Fp F, tel = manualTel pr sr l L Fp F) ∨ ∃ alpha, tel = effelsbergTel alpha)
    (bf : ℝ) (hpr : 0 < tel.pr) (hbf : 0 < bf) (hw : 0 < wavel) :
    ((∀ q, Spec.InField tel.pr bf wavel N (u q) ∧ Spec.InField tel.pr bf wavel N (v q)) →
      ∃ r, residual x (tri (n + 1)) beam u v dz wavel illum tel bf cfg = .ok r) ∧
    ((∃ q, ¬ (Spec.InField tel.pr bf wavel N (u q) ∧ Spec.InField tel.pr bf wavel N (v q))) →
      residual x (tri (n + 1)) beam u v dz wavel illum tel bf cfg = .error .valueError) := by
  have h3 : 3 ≤ tri (n + 1) := by
    calc 3 = tri 2 := rfl
      _ ≤ tri (n + 1) := tri_mono (by omega)
  obtain ⟨p, hp, hlen, -⟩ := C36_complete cfg S hex hS h7 hf (tri (n + 1)) h3 x hx
  unfold Core.residual
  rw [hp]
  have hE : ∃ Ea, illum (fun q => Spec.gridPoint tel.pr bf N q.2) (fun q => Spec.gridPoint tel.pr bf N q.1) (p.take 5) tel.pr = .ok Ea := by
    match p, hlen with
    | [a, b, c, d, e], _ => rcases hi with rfl | rfl <;> exact ⟨_, rfl⟩
    | a :: b :: c :: d :: e :: f :: l, _ => rcases hi with rfl | rfl <;> exact ⟨_, rfl⟩
    | [], h => simp at h; omega
    | [_], h => simp at h; omega
    | [_, _], h => simp at h; omega
    | [_, _, _], h => simp at h; omega
    | [_, _, _, _], h => simp at h; omega
  obtain ⟨Ea, hE⟩ := hE
  rcases ht with ⟨pr, sr, l, L, Fp, F, rfl⟩ | ⟨alpha, rfl⟩
  · exact C149_accepts hN hM p n hlen beam u v dz wavel illum _ bf hpr hbf hw _ Ea _ rfl hE (fun _ => rfl)
  · exact C149_accepts hN hM p n hlen beam u v dz wavel illum _ bf hpr hbf hw _ Ea _ rfl hE (fun _ => rfl)

/-- **C149** what is accepted is accepted with a larger grid, a smaller box factor and a longer wavelength. -/
theorem C149_wider (pr bf bf' wavel wavel' : ℝ) (N N' : ℕ) (hN : 2 ≤ N) (hNN : N ≤ N') (hpr : 0 < pr) (hbf : 0 < bf')
    (hbb : bf' ≤ bf) (hw : 0 < wavel) (hww : wavel ≤ wavel') (x : ℝ) (h : Spec.InField pr bf wavel N x) :
    Spec.InField pr bf' wavel' N' x := by
  -- the box factor and the wavelength
  have step1 : Spec.InField pr bf' wavel' N x := by
    have h2 : (2 : ℝ) ≤ N := by exact_mod_cast hN
    have hle : Spec.beamPixel pr bf wavel N ≤ Spec.beamPixel pr bf' wavel' N := by
      unfold Spec.beamPixel
      have h1 : (0 : ℝ) ≤ (N : ℝ) - 1 := by linarith
      have hw' : 0 < wavel' := lt_of_lt_of_le hw hww
      have : 0 ≤ wavel' * ((N : ℝ) - 1) := by positivity
      gcongr
    obtain ⟨h3, h4⟩ := h
    refine ⟨le_trans (neg_le_neg ?_) h3, h4.trans ?_⟩ <;> gcongr
  have hw' : 0 < wavel' := lt_of_lt_of_le hw hww
  -- one pixel more
  induction N', hNN using Nat.le_induction with
  | base => exact step1
  | succ m hm ih =>
    have hm2 : (2 : ℝ) ≤ m := by exact_mod_cast hN.trans hm
    obtain ⟨h3, h4⟩ := ih
    obtain ⟨c, hc⟩ : ∃ c, c = wavel' / (2 * pr * bf') := ⟨_, rfl⟩
    have hc0 : 0 < c := by rw [hc]; positivity
    have e : ∀ k : ℕ, 2 ≤ k → Spec.beamPixel pr bf' wavel' k = c * (((k : ℝ) - 1) / k) := by
      intro k hk
      have : (k : ℝ) ≠ 0 := by positivity
      unfold Spec.beamPixel
      rw [hc]
      field_simp
    rw [e m (hN.trans hm)] at h3 h4
    unfold Spec.InField
    rw [e (m + 1) (by omega)]
    have key : ∀ a b : ℝ, a * (((m : ℝ) - 1) / m) ≤ b * ((((m + 1 : ℕ) : ℝ) - 1) / ((m + 1 : ℕ) : ℝ)) →
        a * (c * (((m : ℝ) - 1) / m)) ≤ b * (c * ((((m + 1 : ℕ) : ℝ) - 1) / ((m + 1 : ℕ) : ℝ))) := by
      intro a b hab
      have := mul_le_mul_of_nonneg_left hab hc0.le
      linarith
    have frac : ∀ a b : ℝ, a * ((m : ℝ) ^ 2 - 1) ≤ b * (m : ℝ) ^ 2 →
        a * (((m : ℝ) - 1) / m) ≤ b * ((((m + 1 : ℕ) : ℝ) - 1) / ((m + 1 : ℕ) : ℝ)) := by
      intro a b hab
      have h0 : (0 : ℝ) < m := by linarith
      push_cast
      rw [← mul_div_assoc, ← mul_div_assoc, div_le_div_iff₀ h0 (by positivity)]
      nlinarith
    have up : ∀ a b : ℕ, a ≤ b → (a : ℝ) * ((m : ℝ) ^ 2 - 1) ≤ (b : ℝ) * (m : ℝ) ^ 2 := by
      intro a b hab
      have : (a : ℝ) ≤ b := by exact_mod_cast hab
      have ha : (0 : ℝ) ≤ a := Nat.cast_nonneg _
      nlinarith [sq_nonneg (m : ℝ)]
    exact ⟨le_trans (neg_le_neg (key _ _ (frac _ _ (up _ _ (by omega))))) h3,
      h4.trans (key _ _ (frac _ _ (up _ _ (by omega))))⟩

/-- **C149** a map within `((N - 1) / 2)` pixels of the axis is accepted; with an even number of pixels the field reaches
one pixel further to the negative side. -/
theorem C149_edges (pr bf wavel : ℝ) (N : ℕ) (hN : 2 ≤ N) (hpr : 0 < pr) (hbf : 0 < bf) (hw : 0 < wavel) :
    (∀ x, |x| ≤ (((N - 1) / 2 : ℕ) : ℝ) * Spec.beamPixel pr bf wavel N → Spec.InField pr bf wavel N x) ∧
    (N % 2 = 1 → ∀ x, Spec.InField pr bf wavel N x → Spec.InField pr bf wavel N (-x)) ∧
    (N % 2 = 0 → Spec.InField pr bf wavel N (-(((N / 2 : ℕ) : ℝ) * Spec.beamPixel pr bf wavel N)) ∧
      ¬ Spec.InField pr bf wavel N (((N / 2 : ℕ) : ℝ) * Spec.beamPixel pr bf wavel N)) := by
  have hp := beamPixel_pos pr bf wavel hN hpr hbf hw
  unfold Spec.InField
  generalize Spec.beamPixel pr bf wavel N = c at hp ⊢
  have hle : (((N - 1) / 2 : ℕ) : ℝ) ≤ ((N / 2 : ℕ) : ℝ) := by exact_mod_cast (by omega : (N - 1) / 2 ≤ N / 2)
  refine ⟨fun x hx => ?_, fun h x hx => ?_, fun h => ⟨⟨le_rfl, ?_⟩, ?_⟩⟩
  · obtain ⟨h1, h2⟩ := abs_le.1 hx
    exact ⟨by nlinarith, h2⟩
  · rw [show N / 2 = (N - 1) / 2 by omega] at hx ⊢
    exact ⟨by linarith [hx.2], by linarith [hx.1]⟩
  · have : (0 : ℝ) ≤ ((N / 2 : ℕ) : ℝ) * c := by positivity
    have : (0 : ℝ) ≤ (((N - 1) / 2 : ℕ) : ℝ) * c := by positivity
    linarith
  · rintro ⟨-, h2⟩
    have h3 : (((N - 1) / 2 : ℕ) : ℝ) + 1 ≤ ((N / 2 : ℕ) : ℝ) := by exact_mod_cast (by omega : (N - 1) / 2 + 1 ≤ N / 2)
    nlinarith

/-- The Effelsberg telescope at 9 mm with 256 pixels and box factor 5, and the package's configuration: samples up to
2.2 mrad from the axis are taken, and with one at 2.3 mrad the fit stops at the first evaluation, whatever the
parameters are. -/
example (beam : Fin 3 × Fin 2 → Fl) (x : List ℝ) (hx : x.length = 21) :
    (∃ r, Core.residual (N := 256) x 21 beam (fun q => ![0.0022, -0.0022] q.2) (fun _ => 0) ![-0.022, 0, 0.022] 0.009
      illumGauss (effelsbergTel (Real.pi / 18)) 5 defaultConfig = .ok r) ∧
    Core.residual (N := 256) x 21 beam (fun q => ![0.0023, -0.0022] q.2) (fun _ => 0) ![-0.022, 0, 0.022] 0.009
      illumGauss (effelsbergTel (Real.pi / 18)) 5 defaultConfig = .error .valueError := by
  have hpr : (0 : ℝ) < (effelsbergTel (ι := Fin 256 × Fin 256) (Real.pi / 18)).pr := by norm_num [effelsbergTel]
  have hS : ([1, 2, 3, 4, 5] : List ℕ).Pairwise (· < ·) := by decide
  have ht : (∃ pr sr l L Fp F, effelsbergTel (ι := Fin 256 × Fin 256) (Real.pi / 18) = manualTel pr sr l L Fp F) ∨
    ∃ alpha, effelsbergTel (ι := Fin 256 × Fin 256) (Real.pi / 18) = effelsbergTel alpha := Or.inr ⟨_, rfl⟩
  have hf : ∀ y : ℝ, |y| ≤ 0.0022 → Spec.InField 50 5 0.009 256 y := fun y hy =>
    (C149_edges 50 5 0.009 256 (by norm_num) (by norm_num) (by norm_num) (by norm_num)).1 y
      (hy.trans (by norm_num [Spec.beamPixel]))
  constructor
  · refine (C149_package (by norm_num) (by norm_num) defaultConfig [1, 2, 3, 4, 5] rfl hS (by decide) rfl 5 (by norm_num) x
      (by simp [hx, tri]) beam _ _ _ 0.009 illumGauss (Or.inl rfl) _ ht 5 hpr (by norm_num) (by norm_num)).1 ?_
    rintro ⟨i, k⟩
    refine ⟨hf _ ?_, hf _ (by norm_num)⟩
    fin_cases k <;> norm_num [abs_of_pos]
  · refine (C149_package (by norm_num) (by norm_num) defaultConfig [1, 2, 3, 4, 5] rfl hS (by decide) rfl 5 (by norm_num) x
      (by simp [hx, tri]) beam _ _ _ 0.009 illumGauss (Or.inl rfl) _ ht 5 hpr (by norm_num) (by norm_num)).2 ⟨(0, 0), ?_⟩
    rintro ⟨⟨-, h⟩, -⟩
    norm_num [Spec.beamPixel, effelsbergTel] at h

end Verif.Props
