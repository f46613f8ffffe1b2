import Verif.Props.DoubleEffelsberg
import Verif.Props.DoubleOwn

/-!
# C127: patterns and residuals of the Effelsberg telescope in the arithmetic of doubles
-/

namespace Verif.Props

open Verif Verif.Np Verif.Aperture

/-- The angle of the shade, in degrees: none, or between 1 and 60 degrees and no pixel within `2 ^ -20` m of an edge of the shade. -/
def Spec.ShadeAngle (Lm : Dbl.LibmT) {ι : Type} (α : ℝ) (x y : ι → ℝ) : Prop :=
  (α = 0 ∧ Lm.sin (.fin 0) = .fin 0 ∧ Lm.powr (.fin 0) (.fin (-2)) = .pinf) ∨
  (1 ≤ α ∧ α ≤ 60 ∧
    ∀ q, Spec.ClearOfShade (α * (Real.pi / 180)) (x q) (y q) ∧ Spec.ClearOfShade (α * (Real.pi / 180)) (y q) (x q))

theorem eff_block {rnd : ℝ → Fl} (h : Spec.Rounding rnd) {Lm : Dbl.LibmT} (hL : Spec.AccurateT Lm) {ι : Type} {α : ℝ}
    (x y g k : ι → ℝ) (hg : ∀ q, |g q - x q| ≤ 448 * 50 / 2 ^ 53 ∧ |k q - y q| ≤ 448 * 50 / 2 ^ 53)
    (hbox : ∀ q, |x q| ≤ 64 * 50 ∧ |y q| ≤ 64 * 50) (hc : ∀ q, Spec.ClearOfEdges 50 3.25 1 20 (x q) (y q))
    (hα : Spec.ShadeAngle Lm α x y) :
    ∃ B, Telgeometry.blockEffelsberg (α * (Real.pi / 180)) x y = .ok B ∧
      Dbl.blockEffelsberg rnd Lm (.fin α) (fun q => .fin (g q)) (fun q => .fin (k q)) = .ok (fun q => .fin (B q)) ∧
      ∀ q, B q = 0 ∨ (B q = 1 ∧ x q ^ 2 + y q ^ 2 ≤ 50 ^ 2 * (1 - 1 / 2 ^ 40)) := by
  rcases hα with ⟨rfl, hs, hp⟩ | ⟨h1, h2, hsh⟩
  · rw [zero_mul, C26_zero_angle, C127_zero h hs hp]
    have hgb : ∀ q, |g q| ≤ 100 * 50 ∧ |k q| ≤ 100 * 50 := fun q =>
      ⟨gridPoint_le (by norm_num) (hg q).1 (hbox q).1, gridPoint_le (by norm_num) (hg q).2 (hbox q).2⟩
    exact blockD_same h (p := 50) (sr := 3.25) (a := 1) (L := 20) (by norm_num) (by norm_num) (by norm_num)
      (by norm_num) (by norm_num) (by norm_num) x y g k hg hgb hc
  · exact C127_block h hL h1 h2 x y g k hg hbox hc hsh

theorem own_light_near {rnd : ℝ → Fl} (h : Spec.Rounding rnd) {Lm : Dbl.LibmP} (hL : Spec.AccurateP Lm) {ι : Type} {pr : ℝ}
    (hp1 : 1 / 2 ^ 90 ≤ pr) (hp2 : pr ≤ 2 ^ 90) (x y g k : ι → ℝ)
    (hg : ∀ q, |g q - x q| ≤ 448 * pr / 2 ^ 53 ∧ |k q - y q| ≤ 448 * pr / 2 ^ 53)
    (hbox : ∀ q, |x q| ≤ 64 * pr ∧ |y q| ≤ 64 * pr) (I : List ℝ) (illum : Illum ι) (illumD : Dbl.Illum ι) (εa : ℝ)
    (hi : Spec.OwnLight rnd Lm pr x y I illum illumD εa) :
    0 ≤ εa ∧ ∃ Ea e : ι → ℝ, illum x y I pr = .ok Ea ∧
      illumD (fun q => .fin (g q)) (fun q => .fin (k q)) (I.map .fin) (.fin pr) = .ok (fun q => .fin (e q)) ∧
      ∀ q, Spec.IsDouble (e q) ∧ |e q| ≤ 2 ^ 300 ∧
        (x q ^ 2 + y q ^ 2 ≤ pr ^ 2 → |x q| ≤ pr → |y q| ≤ pr → |e q - Ea q| ≤ εa) := by
  rcases hi with ⟨rfl, rfl, i, c, b, x0, y0, rfl, hl, hbd, hb1, hb2, htp, rfl⟩ | ⟨rfl, rfl, i, c, x0, y0, mid, rfl, hl, rfl⟩
  · choose e he hed heb hee using fun q => parabolicD_near h hL hp1 hp2 hl.i1 hl.id hl.c0 hl.c1 hbd hb1 hb2 hl.x1 hl.y1
      (hg q).1 (hg q).2 (hbox q).1 (hbox q).2
    refine ⟨by positivity, fun q => Aperture.parabolicAt i (.bare c) b (.bare x0) (.bare y0) pr (x q) (y q), e, rfl, ?_, fun q =>
      ⟨hed q, heb q, fun j0 j1 j2 => hee q j1 j2 (htp q j0)⟩⟩
    simp only [List.map_cons, List.map_nil, Dbl.illumParabolic, he]
  · choose e he hed heb hee using fun q => gaussD_near h hL hp1 hp2 hl.i1 hl.c0 hl.c1 hl.x1 hl.y1
      (hg q).1 (hg q).2 (hbox q).1 (hbox q).2
    refine ⟨by positivity, fun q => Aperture.gaussAt i (.bare c) (.bare x0) (.bare y0) pr (x q) (y q), e,
      gauss_ignores_middle x y i c x0 y0 pr mid, ?_, fun q => ⟨hed q, heb q, fun _ j1 j2 => hee q j1 j2⟩⟩
    unfold Dbl.illumGauss
    have e1 : (List.map Fl.fin (i :: c :: (mid ++ [x0, y0]))).drop ((List.map Fl.fin (i :: c :: (mid ++ [x0, y0]))).length - 2) =
        [.fin x0, .fin y0] := by
      rw [show List.map Fl.fin (i :: c :: (mid ++ [x0, y0])) = (.fin i :: .fin c :: mid.map .fin) ++ [.fin x0, .fin y0] by simp]
      rw [List.length_append, show (List.length [Fl.fin x0, Fl.fin y0]) = 2 from rfl, Nat.add_sub_cancel, List.drop_left]
    have e2 : (List.map Fl.fin (i :: c :: (mid ++ [x0, y0]))).take 2 = [.fin i, .fin c] := rfl
    rw [e1, e2]
    simp only [he]

theorem eff_optics {rnd : ℝ → Fl} (h : Spec.Rounding rnd) {Lm : Dbl.LibmT} (hL : Spec.AccurateT Lm) {N : ℕ} (hN : 2 ≤ N)
    (hN' : N ≤ 2 ^ 30) {α : ℝ} (bf : ℝ) (hb1 : 1 ≤ bf) (hb2 : bf ≤ 50)
    (hc : ∀ q : Fin N × Fin N, Spec.ClearOfEdges 50 3.25 1 20 (Spec.node 50 bf N q.2) (Spec.node 50 bf N q.1))
    (hα : Spec.ShadeAngle Lm α (fun q : Fin N × Fin N => Spec.node 50 bf N q.2) (fun q => Spec.node 50 bf N q.1))
    (I : List ℝ) (illum : Illum (Fin N × Fin N)) (illumD : Dbl.Illum (Fin N × Fin N)) (εa : ℝ)
    (hi : Spec.OwnLight rnd Lm.toLibmP 50 (fun q => Spec.node 50 bf N q.2) (fun q => Spec.node 50 bf N q.1) I illum illumD εa)
    (dz dm wavel : ℝ) (hw : 0 < wavel) (hdz : |dz| ≤ dm) (hdm : dm ≤ 2 ^ 90) :
    0 ≤ εa ∧ ∃ B Ea delta, Spec.SameOptics (Telgeometry.effelsbergTel (α * (Real.pi / 180))) illum
      (Dbl.effelsbergTel rnd Lm (.fin α)) illumD
      (fun q => Np.linspace (-(50 * bf)) (50 * bf) N q.2) (fun q => Np.linspace (-(50 * bf)) (50 * bf) N q.1)
      (fun q => Spec.gridD rnd 50 bf N q.2) (fun q => Spec.gridD rnd 50 bf N q.1) I dz wavel εa
      (Spec.effWaves dm wavel) (2 * dm / wavel) B Ea delta := by
  obtain ⟨c, hcm, hcd, hce, hc1, hc2⟩ := box_near h (p := 50) (by norm_num) (by norm_num) hb1 hb2
  choose g hg hgd hge hg0 hge' hgb using fun i => boxGrid_near h (p := 50) (by norm_num) hb1 hb2 hcd hce hc1 hc2 hN hN' i
  have hgrid : ∀ i, Spec.gridD rnd 50 bf N i = .fin (g i) := by
    intro i
    unfold Spec.gridD
    rw [hcm]
    exact hg i
  have e1 : (fun q : Fin N × Fin N => Spec.gridD rnd 50 bf N q.2) = fun q => .fin (g q.2) := funext fun q => hgrid _
  have e2 : (fun q : Fin N × Fin N => Spec.gridD rnd 50 bf N q.1) = fun q => .fin (g q.1) := funext fun q => hgrid _
  rw [e1, e2]
  set x : Fin N × Fin N → ℝ := fun q => Np.linspace (-(50 * bf)) (50 * bf) N q.2 with hx
  set y : Fin N × Fin N → ℝ := fun q => Np.linspace (-(50 * bf)) (50 * bf) N q.1 with hy
  have hge2 : ∀ q : Fin N × Fin N, |g q.2 - x q| ≤ 448 * 50 / 2 ^ 53 ∧ |g q.1 - y q| ≤ 448 * 50 / 2 ^ 53 :=
    fun q => ⟨hge' _, hge' _⟩
  have hbox : ∀ q : Fin N × Fin N, |x q| ≤ 64 * 50 ∧ |y q| ≤ 64 * 50 := fun q => ⟨hgb _, hgb _⟩
  obtain ⟨hεa, Ea, e, hI, hId, he⟩ := own_light_near h hL.base (pr := 50) (by norm_num) (by norm_num) x y
    (fun q => g q.2) (fun q => g q.1) hge2 hbox I illum illumD εa hi
  obtain ⟨B, hB, hBd, hlit⟩ := eff_block h hL x y (fun q => g q.2) (fun q => g q.1) hge2 hbox hc hα
  obtain ⟨delta, d, hdl, hdd, hde⟩ := C127_opd h x y (fun q => g q.2) (fun q => g q.1) hge2 hbox dz (hdz.trans hdm)
  have hin : ∀ q, B q ≠ 0 → x q ^ 2 + y q ^ 2 ≤ 50 ^ 2 := by
    intro q hq
    rcases hlit q with h0 | ⟨-, hin⟩
    · exact absurd h0 hq
    · exact hin.trans (by norm_num)
  refine ⟨hεa, B, Ea, delta, ⟨rfl, hB, hBd, hlit, hI, ⟨e, hId, fun q => ⟨(he q).1, (he q).2.1, fun hq => ?_⟩⟩, hdl,
    ⟨d, hdd, fun q => ⟨(hde q).1, (hde q).2.1, fun hq => ⟨?_, ?_⟩⟩⟩⟩⟩
  · have hle := hin q (by rw [hq]; norm_num)
    exact (he q).2.2 hle (abs_le_of_sq_le_sq (by nlinarith [sq_nonneg (y q)]) (by norm_num))
      (abs_le_of_sq_le_sq (by nlinarith [sq_nonneg (x q)]) (by norm_num))
  · rw [div_mul_cancel₀ _ hw.ne']
    exact (hde q).2.2.1.trans (by linarith)
  · unfold Spec.effWaves
    rw [div_mul_cancel₀ _ hw.ne']
    refine ((hde q).2.2.2 (hin q (by rw [hq]; norm_num))).trans ?_
    gcongr

theorem effWaves_le {dm wavel : ℝ} (hl : 1 / 2 ^ 100 ≤ wavel) (hd0 : 0 ≤ dm) (hw : dm ≤ 2 ^ 41 * wavel) :
    0 ≤ Spec.effWaves dm wavel ∧ Spec.effWaves dm wavel ≤ 1 ∧ 0 ≤ 2 * dm / wavel ∧ 2 * dm / wavel ≤ 2 ^ 200 := by
  have hw0 : 0 < wavel := lt_of_lt_of_le (by positivity) hl
  have hτ' : (2 : ℝ) ^ (-1074 : ℤ) ≤ 1 / 2 ^ 101 := by
    have : (2 : ℝ) ^ (-1074 : ℤ) ≤ 2 ^ (-101 : ℤ) := zpow_le_zpow_right₀ one_le_two (by norm_num)
    refine this.trans (le_of_eq ?_)
    norm_num [zpow_neg]
  refine ⟨?_, ?_, by positivity, ?_⟩
  · unfold Spec.effWaves
    positivity
  · unfold Spec.effWaves
    rw [div_le_one hw0]
    generalize (2 : ℝ) ^ (-1074 : ℤ) = τ at *
    norm_num at hl hτ' hw ⊢
    linarith
  · rw [div_le_iff₀ hw0]
    norm_num at hw ⊢
    linarith

/-- **C127.**  The radiation pattern of the Effelsberg telescope in doubles, with either illumination of the package. -/
theorem C127_pattern {rnd : ℝ → Fl} (h : Spec.Rounding rnd) {Lm : Dbl.LibmT} (hL : Spec.AccurateT Lm) (n : ℕ)
    (hn : n ≤ 20) (K : List ℝ) (hK : K.length = (n + 1) * (n + 2) / 2) (hKd : ∀ k ∈ K, Spec.IsDouble k)
    (hKs : (K.map fun k => |k|).sum ≤ 2 ^ 200) (N : ℕ) (hN : 2 ≤ N) (hN' : N ≤ 2 ^ 30)
    (fft : (Fin N × Fin N → Dbl.Cx) → Fin N × Fin N → Dbl.Cx) (η : ℝ) (hη : 0 ≤ η) (hη1 : η ≤ 1)
    (hF : Spec.FourierAccurate η fft) (α bf : ℝ) (hb1 : 1 ≤ bf) (hb2 : bf ≤ 50)
    (hc : ∀ q : Fin N × Fin N, Spec.ClearOfEdges 50 3.25 1 20 (Spec.node 50 bf N q.2) (Spec.node 50 bf N q.1))
    (hα : Spec.ShadeAngle Lm α (fun q : Fin N × Fin N => Spec.node 50 bf N q.2) (fun q => Spec.node 50 bf N q.1))
    (I : List ℝ) (illum : Illum (Fin N × Fin N)) (illumD : Dbl.Illum (Fin N × Fin N)) (εa : ℝ)
    (hi : Spec.OwnLight rnd Lm.toLibmP 50 (fun q => Spec.node 50 bf N q.2) (fun q => Spec.node 50 bf N q.1) I illum illumD εa)
    (dz wavel : ℝ) (hl : 1 / 2 ^ 100 ≤ wavel) (hl2 : wavel ≤ 2 ^ 100) (hdz : |dz| ≤ 2 ^ 90) (hw : |dz| ≤ 2 ^ 41 * wavel) :
    ∃ P Q E B Ea, Dbl.radiationPattern rnd Lm.toLibmC fft (I.map .fin) (K.map .fin) (.fin dz) (.fin wavel) illumD
        (Dbl.effelsbergTel rnd Lm (.fin α)) (.fin bf) = .ok P ∧
      Aperture.radiationPattern I K dz wavel illum (Telgeometry.effelsbergTel (α * (Real.pi / 180))) bf = .ok Q ∧
      Telgeometry.blockEffelsberg (α * (Real.pi / 180)) (fun q => Spec.node 50 bf N q.2) (fun q => Spec.node 50 bf N q.1) = .ok B ∧
      illum (fun q => Spec.node 50 bf N q.2) (fun q => Spec.node 50 bf N q.1) I 50 = .ok Ea ∧
      (∀ q, ‖E q‖ = |B q * Ea q|) ∧
      (∀ i, ∃ a b, P.u i = .fin a ∧ P.v i = .fin b ∧ Spec.IsDouble a ∧ Spec.IsDouble b ∧
        |a - Q.u i| ≤ N / 2 ^ 49 * |Q.u i| ∧ |b - Q.v i| ≤ N / 2 ^ 49 * |Q.v i|) ∧
      ∀ q, ∃ G, P.F q = Spec.cx G ∧ Spec.CDouble G ∧ ‖G - Q.F q‖ ≤
        Spec.farError E (Spec.fieldError n K (2 * |dz| / wavel) (Spec.effWaves |dz| wavel)) εa η := by
  have hw0 : 0 < wavel := lt_of_lt_of_le (by positivity) hl
  have h50 : Spec.IsDouble 50 := by simpa using isDouble_int (z := 50) (by norm_num)
  obtain ⟨hεa, B, Ea, delta, hO⟩ := eff_optics h hL hN hN' bf hb1 hb2 hc hα I illum illumD εa hi dz |dz| wavel hw0 le_rfl hdz
  obtain ⟨w1, w2, w3, w4⟩ := effWaves_le hl (abs_nonneg dz) hw
  obtain ⟨P, Q, E, i1, i2, -, i4, i5, i6⟩ := C124_pattern h hL.base.base n hn K hK hKd hKs N hN hN' fft η hη hη1 hF
    (Telgeometry.effelsbergTel (α * (Real.pi / 180))) illum _ illumD h50 (by show (1 / 2 ^ 90 : ℝ) ≤ 50; norm_num)
    (by show (50 : ℝ) ≤ _; norm_num) I bf dz wavel εa _ _ hb1 hb2 hl hl2 w3 w4 w1 w2 hεa
    B Ea delta hO
  refine ⟨P, Q, E, B, Ea, i1, i2, hO.block, hO.illum, i4, i5, fun q => ?_⟩
  obtain ⟨G, j1, j2, -, j3⟩ := i6 q
  exact ⟨G, j1, j2, j3⟩

/-- **C127.**  The residual of a fit of the Effelsberg telescope in doubles. -/
theorem C127_residual {rnd : ℝ → Fl} (h : Spec.Rounding rnd) {Lm : Dbl.LibmT} (hL : Spec.AccurateT Lm) (n : ℕ)
    (hn : n ≤ 20) (params : List ℝ) (hK : (params.drop 5).length = (n + 1) * (n + 2) / 2)
    (hKd : ∀ k ∈ params.drop 5, Spec.IsDouble k)
    (hKs : ((params.drop 5).map fun k => |k|).sum ≤ 2 ^ 200) {N M : ℕ} (hM : 0 < M) (hN : 2 ≤ N) (hN' : N ≤ 2 ^ 20)
    (fft : (Fin N × Fin N → Dbl.Cx) → Fin N × Fin N → Dbl.Cx) (η : ℝ) (hη : 0 ≤ η) (hη1 : η ≤ 1)
    (hF : Spec.FourierAccurate η fft) (α bf : ℝ) (hb1 : 1 ≤ bf) (hb2 : bf ≤ 50)
    (hc : ∀ q : Fin N × Fin N, Spec.ClearOfEdges 50 3.25 1 20 (Spec.node 50 bf N q.2) (Spec.node 50 bf N q.1))
    (hα : Spec.ShadeAngle Lm α (fun q : Fin N × Fin N => Spec.node 50 bf N q.2) (fun q => Spec.node 50 bf N q.1))
    (illum : Illum (Fin N × Fin N)) (illumD : Dbl.Illum (Fin N × Fin N)) (εa : ℝ)
    (hi : Spec.OwnLight rnd Lm.toLibmP 50 (fun q => Spec.node 50 bf N q.2) (fun q => Spec.node 50 bf N q.1) (params.take 5) illum
      illumD εa)
    (dz : Fin 3 → ℝ) (dm wavel : ℝ) (hl : 1 / 2 ^ 100 ≤ wavel) (hl2 : wavel ≤ 2 ^ 100) (hdz : ∀ i, |dz i| ≤ dm)
    (hdm : dm ≤ 2 ^ 90) (hw : dm ≤ 2 ^ 41 * wavel)
    (u v data : Fin 3 × Fin M → ℝ) (hud : ∀ q, Spec.IsDouble (u q) ∧ Spec.IsDouble (v q))
    (hus : ∀ q, Spec.InBeam N 50 bf wavel (u q) ∧ Spec.InBeam N 50 bf wavel (v q))
    (hdd : ∀ q, Spec.IsDouble (data q) ∧ |data q| ≤ 2 ^ 900) :
    ∃ (r rd : List ℝ) (B Ea : Fin N × Fin N → ℝ),
      Core.residualTrue params (fun q => .fin (data q)) u v dz wavel illum (Telgeometry.effelsbergTel (α * (Real.pi / 180))) bf
        = .ok r ∧
      Dbl.residualTrue rnd Lm.toLibmC fft (params.map .fin) (fun q => .fin (data q)) (fun q => .fin (u q)) (fun q => .fin (v q))
        (fun j => .fin (dz j)) (.fin wavel) illumD (Dbl.effelsbergTel rnd Lm (.fin α)) (.fin bf) = .ok (rd.map .fin) ∧
      Telgeometry.blockEffelsberg (α * (Real.pi / 180)) (fun q => Spec.node 50 bf N q.2) (fun q => Spec.node 50 bf N q.1) = .ok B ∧
      illum (fun q => Spec.node 50 bf N q.2) (fun q => Spec.node 50 bf N q.1) (params.take 5) 50 = .ok Ea ∧
      r.length = 3 * M ∧ rd.length = 3 * M ∧ (∀ x ∈ rd, Spec.IsDouble x ∧ -1 ≤ x ∧ x ≤ 1) ∧
      ∀ i : Fin 3, ∃ b : Fin M → ℝ,
        Core.modelRow params u v dz wavel illum (Telgeometry.effelsbergTel (α * (Real.pi / 180))) bf i = .ok b ∧
        ∀ s t, data (i, s) < data (i, t) → ∀ s' t',
          2 * Spec.beamError (fun q => B q * Ea q) (Spec.fieldError n (params.drop 5) (2 * dm / wavel)
            (Spec.effWaves dm wavel)) εa η < b t' - b s' →
          ∀ k : Fin M, ∃ x y, r[(i : ℕ) * M + k]? = some x ∧ rd[(i : ℕ) * M + k]? = some y ∧
            |y - x| ≤ 2 * Spec.beamError (fun q => B q * Ea q) (Spec.fieldError n (params.drop 5) (2 * dm / wavel)
              (Spec.effWaves dm wavel)) εa η / (b t' - b s') + 1 / 2 ^ 49 := by
  have hw0 : 0 < wavel := lt_of_lt_of_le (by positivity) hl
  have h50 : Spec.IsDouble 50 := by simpa using isDouble_int (z := 50) (by norm_num)
  choose hεa B Ea delta hO using fun j => eff_optics h hL hN (hN'.trans (by norm_num)) bf hb1 hb2 hc hα (params.take 5) illum
    illumD εa hi (dz j) dm wavel hw0 (hdz j) hdm
  obtain ⟨w1, w2, w3, w4⟩ := effWaves_le hl ((abs_nonneg _).trans (hdz 0)) hw
  have eB : ∀ j, B j = B 0 := fun j => Except.ok.inj ((hO j).block.symm.trans (hO 0).block)
  have eE : ∀ j, Ea j = Ea 0 := fun j => Except.ok.inj ((hO j).illum.symm.trans (hO 0).illum)
  obtain ⟨r, rd, i1, i2, i3, i4, i5, i6⟩ := C125_residual h hL.base.base n hn params hK hKd hKs hM hN hN' fft η hη hη1 hF
    (Telgeometry.effelsbergTel (α * (Real.pi / 180))) illum _ illumD h50 (by show (1 / 2 ^ 90 : ℝ) ≤ 50; norm_num)
    (by show (50 : ℝ) ≤ _; norm_num) dz bf wavel εa _ _ hb1 hb2 hl hl2 w3 w4 w1 w2 (hεa 0)
    (B 0) (Ea 0) delta (fun j => by
      have := hO j
      rw [eB j, eE j] at this
      exact this) u v data hud hus hdd
  exact ⟨r, rd, B 0, Ea 0, i1, i2, (hO 0).block, (hO 0).illum, i3, i4, i5, i6⟩

end Verif.Props
