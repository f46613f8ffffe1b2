import Verif.Props.DoubleIllum
import Verif.Props.DoubleResidual

/-!
# C126: the telescope and the illuminations of the package in the arithmetic of doubles
-/

namespace Verif.Props

open Verif Verif.Np Verif.Aperture

/-- A telescope of sensible sizes, described by doubles: from `2 ^ -90` to `2 ^ 90` units. -/
structure Spec.SensibleTel (pr sr a L Fp F : ℝ) : Prop where
  pr1 : 1 / 2 ^ 90 ≤ pr
  pr2 : pr ≤ 2 ^ 90
  prd : Spec.IsDouble pr
  sr0 : 0 ≤ sr
  sr1 : sr ≤ pr
  L0 : 0 ≤ L
  L1 : L ≤ pr
  Fp1 : 1 / 2 ^ 90 ≤ Fp
  Fp2 : Fp ≤ 2 ^ 90
  Fpd : Spec.IsDouble Fp
  F1 : 1 / 2 ^ 90 ≤ F
  F2 : F ≤ 2 ^ 90
  Fd : Spec.IsDouble F

/-- Sensible coefficients of the illumination: the taper is between 0 and 100 dB, the centre inside the square around the dish. -/
structure Spec.SensibleLight (pr i c x0 y0 : ℝ) : Prop where
  i1 : |i| ≤ 2 ^ 200
  id : Spec.IsDouble i
  c0 : c ≤ 0
  c1 : -100 ≤ c
  x1 : |x0| ≤ pr
  y1 : |y0| ≤ pr

/-- The error of the path difference in wavelengths, for radial offsets up to `dm`. -/
noncomputable def Spec.opdWaves (pr Fp F dm wavel : ℝ) : ℝ := (dm * Spec.opdError pr Fp F + 2 ^ (-1074 : ℤ)) / wavel

theorem opdAt_le (Fp F x y dz : ℝ) : |Telgeometry.opdAt Fp F x y dz| ≤ 2 * |dz| := by
  have hc : ∀ a : ℝ, |(1 - a ^ 2) / (1 + a ^ 2)| ≤ 1 := by
    intro a
    have h0 : 0 < 1 + a ^ 2 := by positivity
    rw [abs_div, abs_of_pos h0, div_le_one h0, abs_le]
    constructor <;> nlinarith [sq_nonneg a]
  unfold Telgeometry.opdAt
  simp only
  rw [abs_mul, mul_comm 2 |dz|]
  refine mul_le_mul_of_nonneg_left ((abs_add_le _ _).trans ?_) (abs_nonneg dz)
  linarith [hc (Real.sqrt (x ^ 2 + y ^ 2) / (2 * Fp)), hc (Real.sqrt (x ^ 2 + y ^ 2) / (2 * F))]

theorem gridPoint_le {p x g : ℝ} (hp : 0 < p) (hg : |g - x| ≤ 448 * p / 2 ^ 53) (hx : |x| ≤ 64 * p) : |g| ≤ 100 * p := by
  have : |g| ≤ |g - x| + |x| := by
    have := abs_add_le (g - x) x
    rwa [sub_add_cancel] at this
  norm_num at hg
  linarith

/-- The two telescopes, with any illumination whose error is known. -/
theorem own_same {rnd : ℝ → Fl} (h : Spec.Rounding rnd) {ι : Type} {pr sr a L Fp F : ℝ}
    (ht : Spec.SensibleTel pr sr a L Fp F) (x y g k : ι → ℝ)
    (hg : ∀ q, |g q - x q| ≤ 448 * pr / 2 ^ 53 ∧ |k q - y q| ≤ 448 * pr / 2 ^ 53)
    (hbox : ∀ q, |x q| ≤ 64 * pr ∧ |y q| ≤ 64 * pr) (hc : ∀ q, Spec.ClearOfEdges pr sr a L (x q) (y q))
    (I : List ℝ) (dz dm wavel εa : ℝ) (hw : 0 < wavel) (hdz : |dz| ≤ dm) (hdm : dm ≤ 2 ^ 90)
    (illum : Illum ι) (illumD : Dbl.Illum ι) (Ea e : ι → ℝ) (hI : illum x y I pr = .ok Ea)
    (hId : illumD (fun q => .fin (g q)) (fun q => .fin (k q)) (I.map .fin) (.fin pr) = .ok fun q => .fin (e q))
    (he : ∀ q, Spec.IsDouble (e q) ∧ |e q| ≤ 2 ^ 300 ∧ (x q ^ 2 + y q ^ 2 ≤ pr ^ 2 → |x q| ≤ pr → |y q| ≤ pr → |e q - Ea q| ≤ εa)) :
    ∃ B delta, Spec.SameOptics (Telgeometry.manualTel pr sr a L Fp F) illum
      (Dbl.manualTel rnd (.fin pr) (.fin sr) (.fin a) (.fin L) (.fin Fp) (.fin F)) illumD x y (fun q => .fin (g q))
      (fun q => .fin (k q)) I dz wavel εa (Spec.opdWaves pr Fp F dm wavel) (2 * dm / wavel) B Ea delta ∧
      (∀ q, delta q = Telgeometry.opdAt Fp F (x q) (y q) dz) ∧ Telgeometry.blockManual pr sr a L x y = .ok B := by
  have hp0 : 0 < pr := lt_of_lt_of_le (by positivity) ht.pr1
  have hgb : ∀ q, |g q| ≤ 100 * pr ∧ |k q| ≤ 100 * pr := fun q =>
    ⟨gridPoint_le hp0 (hg q).1 (hbox q).1, gridPoint_le hp0 (hg q).2 (hbox q).2⟩
  obtain ⟨B, hB, hBd, hlit⟩ := blockD_same h ht.pr1 ht.pr2 ht.sr0 ht.sr1 ht.L0 ht.L1 x y g k hg hgb hc
  choose d hd hdd hdb hde using fun q => opdAt_near h ht.pr1 ht.pr2 (hg q).1 (hg q).2 (hgb q).1 (hgb q).2 ht.Fpd ht.Fp1 ht.Fp2
    ht.Fd ht.F1 ht.F2 (dz := dz) (hdz.trans (hdm.trans (two_pow_le (by norm_num))))
  refine ⟨B, fun q => Telgeometry.opdAt Fp F (x q) (y q) dz, ⟨rfl, hB, hBd, hlit, hI, ⟨e, hId, fun q => ⟨(he q).1, (he q).2.1, ?_⟩⟩,
    rfl, ⟨d, ?_, fun q => ⟨hdd q, hdb q, fun _ => ⟨?_, ?_⟩⟩⟩⟩, fun q => rfl, hB⟩
  · intro hq
    rcases hlit q with h0 | ⟨-, hin⟩
    · rw [h0] at hq
      norm_num at hq
    · have hle : x q ^ 2 + y q ^ 2 ≤ pr ^ 2 := hin.trans (by
        have : 0 < pr ^ 2 := by positivity
        norm_num
        linarith)
      exact (he q).2.2 hle (abs_le_of_sq_le_sq (by nlinarith [sq_nonneg (y q)]) hp0.le)
        (abs_le_of_sq_le_sq (by nlinarith [sq_nonneg (x q)]) hp0.le)
  · show Dbl.opdManual rnd _ _ _ _ _ = _
    unfold Dbl.opdManual
    simp only [hd]
  · rw [div_mul_cancel₀ _ hw.ne']
    exact (opdAt_le _ _ _ _ _).trans (by linarith)
  · unfold Spec.opdWaves
    rw [div_mul_cancel₀ _ hw.ne']
    refine (hde q).trans ?_
    have : 0 ≤ Spec.opdError pr Fp F := by
      have := lt_of_lt_of_le (by positivity) ht.Fp1
      have := lt_of_lt_of_le (by positivity) ht.F1
      unfold Spec.opdError
      positivity
    gcongr

/-- **C126.**  `block_manual`, `opd_manual` and `illum_parabolic` in doubles, on any grid whose nodes are right to 448 units in
the last place: the same pixels are lit; there the path difference is right to `Spec.opdWaves` wavelengths and the
illumination to `2 ^ -35` of its amplitude.  All numbers are finite. -/
theorem C126_parabolic {rnd : ℝ → Fl} (h : Spec.Rounding rnd) {Lm : Dbl.LibmP} (hL : Spec.AccurateP Lm) {ι : Type}
    {pr sr a L Fp F : ℝ} (ht : Spec.SensibleTel pr sr a L Fp F) (x y g k : ι → ℝ)
    (hg : ∀ q, |g q - x q| ≤ 448 * pr / 2 ^ 53 ∧ |k q - y q| ≤ 448 * pr / 2 ^ 53)
    (hbox : ∀ q, |x q| ≤ 64 * pr ∧ |y q| ≤ 64 * pr) (hc : ∀ q, Spec.ClearOfEdges pr sr a L (x q) (y q))
    (i c b x0 y0 : ℝ) (hl : Spec.SensibleLight pr i c x0 y0) (hbd : Spec.IsDouble b) (hb1 : 1 ≤ b) (hb2 : b ≤ 2)
    (htp : ∀ q, x q ^ 2 + y q ^ 2 ≤ pr ^ 2 → Spec.Tapered b pr x0 y0 (x q) (y q))
    (dz dm wavel : ℝ) (hw : 0 < wavel) (hdz : |dz| ≤ dm) (hdm : dm ≤ 2 ^ 90) :
    ∃ B Ea delta, Spec.SameOptics (Telgeometry.manualTel pr sr a L Fp F) Aperture.illumParabolic
      (Dbl.manualTel rnd (.fin pr) (.fin sr) (.fin a) (.fin L) (.fin Fp) (.fin F)) (Dbl.illumParabolic rnd Lm) x y
      (fun q => .fin (g q)) (fun q => .fin (k q)) [i, c, b, x0, y0] dz wavel (|i| / 2 ^ 35 + 2 ^ (-1074 : ℤ))
      (Spec.opdWaves pr Fp F dm wavel) (2 * dm / wavel) B Ea delta ∧
      (∀ q, delta q = Telgeometry.opdAt Fp F (x q) (y q) dz) ∧ Telgeometry.blockManual pr sr a L x y = .ok B := by
  choose e he hed heb hee using fun q => parabolicD_near h hL ht.pr1 ht.pr2 hl.i1 hl.id hl.c0 hl.c1 hbd hb1 hb2 hl.x1 hl.y1
    (hg q).1 (hg q).2 (hbox q).1 (hbox q).2
  obtain ⟨B, delta, h1, h2, h3⟩ := own_same h ht x y g k hg hbox hc [i, c, b, x0, y0] dz dm wavel (|i| / 2 ^ 35 + 2 ^ (-1074 : ℤ)) hw hdz
    hdm Aperture.illumParabolic (Dbl.illumParabolic rnd Lm)
    (fun q => Aperture.parabolicAt i (.bare c) b (.bare x0) (.bare y0) pr (x q) (y q)) e rfl (by
      simp only [List.map_cons, List.map_nil, Dbl.illumParabolic, he]) fun q =>
      ⟨hed q, heb q, fun j0 j1 j2 => hee q j1 j2 (htp q j0)⟩
  exact ⟨B, _, delta, h1, h2, h3⟩

/-- **C126.**  The same with `illum_gauss`, whose values are right to `2 ^ -40` of the amplitude. -/
theorem C126_gauss {rnd : ℝ → Fl} (h : Spec.Rounding rnd) {Lm : Dbl.LibmP} (hL : Spec.AccurateP Lm) {ι : Type}
    {pr sr a L Fp F : ℝ} (ht : Spec.SensibleTel pr sr a L Fp F) (x y g k : ι → ℝ)
    (hg : ∀ q, |g q - x q| ≤ 448 * pr / 2 ^ 53 ∧ |k q - y q| ≤ 448 * pr / 2 ^ 53)
    (hbox : ∀ q, |x q| ≤ 64 * pr ∧ |y q| ≤ 64 * pr) (hc : ∀ q, Spec.ClearOfEdges pr sr a L (x q) (y q))
    (i c x0 y0 : ℝ) (mid : List ℝ) (hl : Spec.SensibleLight pr i c x0 y0)
    (dz dm wavel : ℝ) (hw : 0 < wavel) (hdz : |dz| ≤ dm) (hdm : dm ≤ 2 ^ 90) :
    ∃ B Ea delta, Spec.SameOptics (Telgeometry.manualTel pr sr a L Fp F) Aperture.illumGauss
      (Dbl.manualTel rnd (.fin pr) (.fin sr) (.fin a) (.fin L) (.fin Fp) (.fin F)) (Dbl.illumGauss rnd Lm) x y
      (fun q => .fin (g q)) (fun q => .fin (k q)) (i :: c :: (mid ++ [x0, y0])) dz wavel (|i| / 2 ^ 40 + 2 ^ (-1073 : ℤ))
      (Spec.opdWaves pr Fp F dm wavel) (2 * dm / wavel) B Ea delta ∧
      (∀ q, delta q = Telgeometry.opdAt Fp F (x q) (y q) dz) ∧ Telgeometry.blockManual pr sr a L x y = .ok B := by
  choose e he hed heb hee using fun q => gaussD_near h hL ht.pr1 ht.pr2 hl.i1 hl.c0 hl.c1 hl.x1 hl.y1
    (hg q).1 (hg q).2 (hbox q).1 (hbox q).2
  obtain ⟨B, delta, h1, h2, h3⟩ := own_same h ht x y g k hg hbox hc (i :: c :: (mid ++ [x0, y0])) dz dm wavel
    (|i| / 2 ^ 40 + 2 ^ (-1073 : ℤ)) hw hdz
    hdm Aperture.illumGauss (Dbl.illumGauss rnd Lm)
    (fun q => Aperture.gaussAt i (.bare c) (.bare x0) (.bare y0) pr (x q) (y q)) e (gauss_ignores_middle x y i c x0 y0 pr mid) (by
      unfold Dbl.illumGauss
      have e1 : (List.map Fl.fin (i :: c :: (mid ++ [x0, y0]))).drop ((List.map Fl.fin (i :: c :: (mid ++ [x0, y0]))).length - 2) =
          [.fin x0, .fin y0] := by
        rw [show List.map Fl.fin (i :: c :: (mid ++ [x0, y0])) = (.fin i :: .fin c :: mid.map .fin) ++ [.fin x0, .fin y0] by simp]
        rw [List.length_append, show (List.length [Fl.fin x0, Fl.fin y0]) = 2 from rfl, Nat.add_sub_cancel, List.drop_left]
      have e2 : (List.map Fl.fin (i :: c :: (mid ++ [x0, y0]))).take 2 = [.fin i, .fin c] := rfl
      rw [e1, e2]
      simp only [he]) fun q =>
      ⟨hed q, heb q, fun _ j1 j2 => hee q j1 j2⟩
  exact ⟨B, _, delta, h1, h2, h3⟩

/-- One of the two illuminations of the package, in exact numbers and in doubles, with coefficients for which its error is
at most `εa`. -/
def Spec.OwnLight (rnd : ℝ → Fl) (Lm : Dbl.LibmP) {ι : Type} (pr : ℝ) (x y : ι → ℝ) (I : List ℝ) (illum : Illum ι)
    (illumD : Dbl.Illum ι) (εa : ℝ) : Prop :=
  (illum = Aperture.illumParabolic ∧ illumD = Dbl.illumParabolic rnd Lm ∧ ∃ i c b x0 y0, I = [i, c, b, x0, y0] ∧
    Spec.SensibleLight pr i c x0 y0 ∧ Spec.IsDouble b ∧ 1 ≤ b ∧ b ≤ 2 ∧
    (∀ q, x q ^ 2 + y q ^ 2 ≤ pr ^ 2 → Spec.Tapered b pr x0 y0 (x q) (y q)) ∧ εa = |i| / 2 ^ 35 + 2 ^ (-1074 : ℤ)) ∨
  (illum = Aperture.illumGauss ∧ illumD = Dbl.illumGauss rnd Lm ∧ ∃ i c x0 y0 mid, I = i :: c :: (mid ++ [x0, y0]) ∧
    Spec.SensibleLight pr i c x0 y0 ∧ εa = |i| / 2 ^ 40 + 2 ^ (-1073 : ℤ))

/-- The place of a pixel of the aperture grid. -/
noncomputable def Spec.node (pr bf : ℝ) (N : ℕ) (i : Fin N) : ℝ := Np.linspace (-(pr * bf)) (pr * bf) N i

theorem own_optics {rnd : ℝ → Fl} (h : Spec.Rounding rnd) {Lm : Dbl.LibmP} (hL : Spec.AccurateP Lm) {N : ℕ} (hN : 2 ≤ N)
    (hN' : N ≤ 2 ^ 30) {pr sr a L Fp F : ℝ} (ht : Spec.SensibleTel pr sr a L Fp F) (bf : ℝ) (hb1 : 1 ≤ bf) (hb2 : bf ≤ 50)
    (hc : ∀ q : Fin N × Fin N, Spec.ClearOfEdges pr sr a L (Spec.node pr bf N q.2) (Spec.node pr bf N q.1))
    (I : List ℝ) (illum : Illum (Fin N × Fin N)) (illumD : Dbl.Illum (Fin N × Fin N)) (εa : ℝ)
    (hi : Spec.OwnLight rnd Lm pr (fun q => Spec.node pr bf N q.2) (fun q => Spec.node pr bf N q.1) I illum illumD εa)
    (dz dm wavel : ℝ) (hw : 0 < wavel) (hdz : |dz| ≤ dm) (hdm : dm ≤ 2 ^ 90) :
    ∃ B Ea delta, Spec.SameOptics (Telgeometry.manualTel pr sr a L Fp F) illum
      (Dbl.manualTel rnd (.fin pr) (.fin sr) (.fin a) (.fin L) (.fin Fp) (.fin F)) illumD
      (fun q => Np.linspace (-(pr * bf)) (pr * bf) N q.2) (fun q => Np.linspace (-(pr * bf)) (pr * bf) N q.1)
      (fun q => Spec.gridD rnd pr bf N q.2) (fun q => Spec.gridD rnd pr bf N q.1) I dz wavel εa
      (Spec.opdWaves pr Fp F dm wavel) (2 * dm / wavel) B Ea delta := by
  have hp0 : 0 < pr := lt_of_lt_of_le (by positivity) ht.pr1
  obtain ⟨c, hcm, hcd, hce, hc1, hc2⟩ := box_near h ht.pr1 ht.pr2 hb1 hb2
  choose g hg hgd hge hg0 hge' hgb using fun i => boxGrid_near h hp0 hb1 hb2 hcd hce hc1 hc2 hN hN' i
  have hgrid : ∀ i, Spec.gridD rnd pr bf N i = .fin (g i) := by
    intro i
    unfold Spec.gridD
    rw [hcm]
    exact hg i
  have e1 : (fun q : Fin N × Fin N => Spec.gridD rnd pr bf N q.2) = fun q => .fin (g q.2) := funext fun q => hgrid _
  have e2 : (fun q : Fin N × Fin N => Spec.gridD rnd pr bf N q.1) = fun q => .fin (g q.1) := funext fun q => hgrid _
  rw [e1, e2]
  rcases hi with ⟨rfl, rfl, i, cd, b, x0, y0, rfl, hl, hbd, hq1, hq2, htp, rfl⟩ | ⟨rfl, rfl, i, cd, x0, y0, mid, rfl, hl, rfl⟩
  · obtain ⟨B, Ea, delta, hO, -⟩ := C126_parabolic h hL ht _ _ (fun q : Fin N × Fin N => g q.2) (fun q => g q.1)
      (fun q => ⟨hge' _, hge' _⟩) (fun q => ⟨hgb _, hgb _⟩) hc i cd b x0 y0 hl hbd hq1 hq2 htp dz dm wavel hw hdz hdm
    exact ⟨B, Ea, delta, hO⟩
  · obtain ⟨B, Ea, delta, hO, -⟩ := C126_gauss h hL ht _ _ (fun q : Fin N × Fin N => g q.2) (fun q => g q.1)
      (fun q => ⟨hge' _, hge' _⟩) (fun q => ⟨hgb _, hgb _⟩) hc i cd x0 y0 mid hl dz dm wavel hw hdz hdm
    exact ⟨B, Ea, delta, hO⟩

theorem opdWaves_le {pr sr a L Fp F dm wavel : ℝ} (ht : Spec.SensibleTel pr sr a L Fp F) (hl : 1 / 2 ^ 100 ≤ wavel)
    (hd0 : 0 ≤ dm) (hd : dm ≤ 2 ^ 90)
    (hw : dm * Spec.opdError pr Fp F ≤ wavel / 2) : 0 ≤ Spec.opdWaves pr Fp F dm wavel ∧ Spec.opdWaves pr Fp F dm wavel ≤ 1 ∧
      0 ≤ 2 * dm / wavel ∧ 2 * dm / wavel ≤ 2 ^ 200 := by
  have hw0 : 0 < wavel := lt_of_lt_of_le (by positivity) hl
  have hp0 : 0 < pr := lt_of_lt_of_le (by positivity) ht.pr1
  have hF0 := lt_of_lt_of_le (by positivity) ht.F1
  have hFp0 := lt_of_lt_of_le (by positivity) ht.Fp1
  have hτ := tiny_le (show (-1074 : ℤ) ≤ -101 + 1 by norm_num)
  have hτ' : (2 : ℝ) ^ (-1074 : ℤ) ≤ 1 / 2 ^ 101 := by
    have : (2 : ℝ) ^ (-1074 : ℤ) ≤ 2 ^ (-101 : ℤ) := zpow_le_zpow_right₀ one_le_two (by norm_num)
    refine this.trans (le_of_eq ?_)
    norm_num [zpow_neg]
  refine ⟨?_, ?_, by positivity, ?_⟩
  · unfold Spec.opdWaves Spec.opdError
    positivity
  · unfold Spec.opdWaves
    rw [div_le_one hw0]
    generalize (2 : ℝ) ^ (-1074 : ℤ) = τ at *
    norm_num at hl hτ'
    linarith
  · rw [div_le_iff₀ hw0]
    have : (2 : ℝ) ^ 200 * (1 / 2 ^ 100) ≤ 2 ^ 200 * wavel := by gcongr
    norm_num at this hd ⊢
    linarith

/-- **C126.**  The radiation pattern of the package's own telescope and illuminations in doubles: no pixel of the grid so near to an
edge of the blockage that rounding moves it across, then neither program raises, all numbers are finite, the axes are right to
`N / 2 ^ 49` of their value and the field in every pixel to `Spec.farError`. -/
theorem C126_pattern {rnd : ℝ → Fl} (h : Spec.Rounding rnd) {Lm : Dbl.LibmP} (hL : Spec.AccurateP Lm) (n : ℕ)
    (hn : n ≤ 20) (K : List ℝ) (hK : K.length = (n + 1) * (n + 2) / 2) (hKd : ∀ k ∈ K, Spec.IsDouble k)
    (hKs : (K.map fun k => |k|).sum ≤ 2 ^ 200) (N : ℕ) (hN : 2 ≤ N) (hN' : N ≤ 2 ^ 30)
    (fft : (Fin N × Fin N → Dbl.Cx) → Fin N × Fin N → Dbl.Cx) (η : ℝ) (hη : 0 ≤ η) (hη1 : η ≤ 1)
    (hF : Spec.FourierAccurate η fft) {pr sr a L Fp F : ℝ} (ht : Spec.SensibleTel pr sr a L Fp F) (bf : ℝ) (hb1 : 1 ≤ bf)
    (hb2 : bf ≤ 50)
    (hc : ∀ q : Fin N × Fin N, Spec.ClearOfEdges pr sr a L (Spec.node pr bf N q.2) (Spec.node pr bf N q.1))
    (I : List ℝ) (illum : Illum (Fin N × Fin N)) (illumD : Dbl.Illum (Fin N × Fin N)) (εa : ℝ)
    (hi : Spec.OwnLight rnd Lm pr (fun q => Spec.node pr bf N q.2) (fun q => Spec.node pr bf N q.1) I illum illumD εa)
    (dz wavel : ℝ) (hl : 1 / 2 ^ 100 ≤ wavel) (hl2 : wavel ≤ 2 ^ 100) (hdz : |dz| ≤ 2 ^ 90)
    (hw : |dz| * Spec.opdError pr Fp F ≤ wavel / 2) :
    ∃ P Q E B Ea, Dbl.radiationPattern rnd Lm.toLibmC fft (I.map .fin) (K.map .fin) (.fin dz) (.fin wavel) illumD
        (Dbl.manualTel rnd (.fin pr) (.fin sr) (.fin a) (.fin L) (.fin Fp) (.fin F)) (.fin bf) = .ok P ∧
      Aperture.radiationPattern I K dz wavel illum (Telgeometry.manualTel pr sr a L Fp F) bf = .ok Q ∧
      Telgeometry.blockManual pr sr a L (fun q => Spec.node pr bf N q.2) (fun q => Spec.node pr bf N q.1) = .ok B ∧
      illum (fun q => Spec.node pr bf N q.2) (fun q => Spec.node pr bf N q.1) I pr = .ok Ea ∧
      (∀ q, ‖E q‖ = |B q * Ea q|) ∧
      (∀ i, ∃ a b, P.u i = .fin a ∧ P.v i = .fin b ∧ Spec.IsDouble a ∧ Spec.IsDouble b ∧
        |a - Q.u i| ≤ N / 2 ^ 49 * |Q.u i| ∧ |b - Q.v i| ≤ N / 2 ^ 49 * |Q.v i|) ∧
      ∀ q, ∃ G, P.F q = Spec.cx G ∧ Spec.CDouble G ∧ ‖G - Q.F q‖ ≤
        Spec.farError E (Spec.fieldError n K (2 * |dz| / wavel) (Spec.opdWaves pr Fp F |dz| wavel)) εa η := by
  have hw0 : 0 < wavel := lt_of_lt_of_le (by positivity) hl
  obtain ⟨B, Ea, delta, hO⟩ := own_optics h hL hN hN' ht bf hb1 hb2 hc I illum illumD εa hi dz |dz| wavel hw0 le_rfl hdz
  obtain ⟨w1, w2, w3, w4⟩ := opdWaves_le ht hl (abs_nonneg dz) hdz hw
  have hεa : 0 ≤ εa := by
    rcases hi with ⟨-, -, i, c, b, x0, y0, -, -, -, -, -, -, rfl⟩ | ⟨-, -, i, c, x0, y0, mid, -, -, rfl⟩ <;> positivity
  obtain ⟨P, Q, E, i1, i2, -, i4, i5, i6⟩ := C124_pattern h hL.base n hn K hK hKd hKs N hN hN' fft η hη hη1 hF
    (Telgeometry.manualTel pr sr a L Fp F) illum _ illumD ht.prd ht.pr1 ht.pr2 I bf dz wavel εa _ _ hb1 hb2 hl hl2 w3 w4 w1 w2 hεa
    B Ea delta hO
  refine ⟨P, Q, E, B, Ea, i1, i2, hO.block, hO.illum, i4, i5, fun q => ?_⟩
  obtain ⟨G, j1, j2, -, j3⟩ := i6 q
  exact ⟨G, j1, j2, j3⟩

/-- **C126.**  The residual of a fit with the package's own telescope and illuminations in doubles. -/
theorem C126_residual {rnd : ℝ → Fl} (h : Spec.Rounding rnd) {Lm : Dbl.LibmP} (hL : Spec.AccurateP Lm) (n : ℕ)
    (hn : n ≤ 20) (params : List ℝ) (hK : (params.drop 5).length = (n + 1) * (n + 2) / 2)
    (hKd : ∀ k ∈ params.drop 5, Spec.IsDouble k)
    (hKs : ((params.drop 5).map fun k => |k|).sum ≤ 2 ^ 200) {N M : ℕ} (hM : 0 < M) (hN : 2 ≤ N) (hN' : N ≤ 2 ^ 20)
    (fft : (Fin N × Fin N → Dbl.Cx) → Fin N × Fin N → Dbl.Cx) (η : ℝ) (hη : 0 ≤ η) (hη1 : η ≤ 1)
    (hF : Spec.FourierAccurate η fft) {pr sr a L Fp F : ℝ} (ht : Spec.SensibleTel pr sr a L Fp F) (bf : ℝ) (hb1 : 1 ≤ bf)
    (hb2 : bf ≤ 50)
    (hc : ∀ q : Fin N × Fin N, Spec.ClearOfEdges pr sr a L (Spec.node pr bf N q.2) (Spec.node pr bf N q.1))
    (illum : Illum (Fin N × Fin N)) (illumD : Dbl.Illum (Fin N × Fin N)) (εa : ℝ)
    (hi : Spec.OwnLight rnd Lm pr (fun q => Spec.node pr bf N q.2) (fun q => Spec.node pr bf N q.1) (params.take 5) illum illumD εa)
    (dz : Fin 3 → ℝ) (dm wavel : ℝ) (hl : 1 / 2 ^ 100 ≤ wavel) (hl2 : wavel ≤ 2 ^ 100) (hdz : ∀ i, |dz i| ≤ dm)
    (hdm : dm ≤ 2 ^ 90) (hw : dm * Spec.opdError pr Fp F ≤ wavel / 2)
    (u v data : Fin 3 × Fin M → ℝ) (hud : ∀ q, Spec.IsDouble (u q) ∧ Spec.IsDouble (v q))
    (hus : ∀ q, Spec.InBeam N pr bf wavel (u q) ∧ Spec.InBeam N pr bf wavel (v q))
    (hdd : ∀ q, Spec.IsDouble (data q) ∧ |data q| ≤ 2 ^ 900) :
    ∃ (r rd : List ℝ) (B Ea : Fin N × Fin N → ℝ),
      Core.residualTrue params (fun q => .fin (data q)) u v dz wavel illum (Telgeometry.manualTel pr sr a L Fp F) bf = .ok r ∧
      Dbl.residualTrue rnd Lm.toLibmC fft (params.map .fin) (fun q => .fin (data q)) (fun q => .fin (u q)) (fun q => .fin (v q))
        (fun j => .fin (dz j)) (.fin wavel) illumD
        (Dbl.manualTel rnd (.fin pr) (.fin sr) (.fin a) (.fin L) (.fin Fp) (.fin F)) (.fin bf) = .ok (rd.map .fin) ∧
      Telgeometry.blockManual pr sr a L (fun q => Spec.node pr bf N q.2) (fun q => Spec.node pr bf N q.1) = .ok B ∧
      illum (fun q => Spec.node pr bf N q.2) (fun q => Spec.node pr bf N q.1) (params.take 5) pr = .ok Ea ∧
      r.length = 3 * M ∧ rd.length = 3 * M ∧ (∀ x ∈ rd, Spec.IsDouble x ∧ -1 ≤ x ∧ x ≤ 1) ∧
      ∀ i : Fin 3, ∃ b : Fin M → ℝ,
        Core.modelRow params u v dz wavel illum (Telgeometry.manualTel pr sr a L Fp F) bf i = .ok b ∧
        ∀ s t, data (i, s) < data (i, t) → ∀ s' t',
          2 * Spec.beamError (fun q => B q * Ea q) (Spec.fieldError n (params.drop 5) (2 * dm / wavel)
            (Spec.opdWaves pr Fp F dm wavel)) εa η < b t' - b s' →
          ∀ k : Fin M, ∃ x y, r[(i : ℕ) * M + k]? = some x ∧ rd[(i : ℕ) * M + k]? = some y ∧
            |y - x| ≤ 2 * Spec.beamError (fun q => B q * Ea q) (Spec.fieldError n (params.drop 5) (2 * dm / wavel)
              (Spec.opdWaves pr Fp F dm wavel)) εa η / (b t' - b s') + 1 / 2 ^ 49 := by
  have hw0 : 0 < wavel := lt_of_lt_of_le (by positivity) hl
  choose B Ea delta hO using fun j => own_optics h hL hN (hN'.trans (by norm_num)) ht bf hb1 hb2 hc (params.take 5) illum illumD εa hi
    (dz j) dm wavel hw0 (hdz j) hdm
  obtain ⟨w1, w2, w3, w4⟩ := opdWaves_le ht hl ((abs_nonneg _).trans (hdz 0)) hdm hw
  have hεa : 0 ≤ εa := by
    rcases hi with ⟨-, -, i, c, b, x0, y0, -, -, -, -, -, -, rfl⟩ | ⟨-, -, i, c, x0, y0, mid, -, -, rfl⟩ <;> positivity
  have eB : ∀ j, B j = B 0 := fun j => Except.ok.inj ((hO j).block.symm.trans (hO 0).block)
  have eE : ∀ j, Ea j = Ea 0 := fun j => Except.ok.inj ((hO j).illum.symm.trans (hO 0).illum)
  obtain ⟨r, rd, i1, i2, i3, i4, i5, i6⟩ := C125_residual h hL.base n hn params hK hKd hKs hM hN hN' fft η hη hη1 hF
    (Telgeometry.manualTel pr sr a L Fp F) illum _ illumD ht.prd ht.pr1 ht.pr2 dz bf wavel εa _ _ hb1 hb2 hl hl2 w3 w4 w1 w2 hεa
    (B 0) (Ea 0) delta (fun j => by
      have := hO j
      rw [eB j, eE j] at this
      exact this) u v data hud hus hdd
  exact ⟨r, rd, B 0, Ea 0, i1, i2, (hO 0).block, (hO 0).illum, i3, i4, i5, i6⟩

end Verif.Props
