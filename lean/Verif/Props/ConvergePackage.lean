import Verif.Props.ConvergeRate

/-!
# C129: how fast finer grids converge, for the telescopes and illuminations of the package
-/

namespace Verif.Props

open Verif Verif.Np Verif.Aperture Verif.Telgeometry Verif.Riemann Verif.Fine MeasureTheory Filter Topology

/-! ## Blockages -/

theorem fine_abs_snd {S : Set (ℝ × ℝ)} (c : ℝ) (h : (∀ p : ℝ × ℝ, |p.2| < c → p ∈ S) ∧ ∀ p : ℝ × ℝ, c < |p.2| → p ∉ S) :
    FineEdge S :=
  fine_graph (f := fun _ => c) continuous_const le_rfl (K := 0) (fun _ _ => by simp) h

theorem fine_abs_fst {S : Set (ℝ × ℝ)} (c : ℝ) (h : (∀ p : ℝ × ℝ, |p.1| < c → p ∈ S) ∧ ∀ p : ℝ × ℝ, c < |p.1| → p ∉ S) :
    FineEdge S :=
  fine_swap (fine_abs_snd c ⟨fun p hp => h.1 p.swap hp, fun p hp => h.2 p.swap hp⟩)

theorem fine_visible (pr sr a L : ℝ) : FineEdge {p : ℝ × ℝ | Spec.visible pr sr a L p.1 p.2} := by
  have b1 : FineEdge {p : ℝ × ℝ | sr ^ 2 < p.1 ^ 2 + p.2 ^ 2} := by
    have : FineEdge {p : ℝ × ℝ | sr ^ 2 < p.1 ^ 2 + p.2 ^ 2}ᶜ := fine_circle 0 0 (sr ^ 2)
      ⟨fun p hp h => by
        have h' : sr ^ 2 < p.1 ^ 2 + p.2 ^ 2 := h
        rw [sub_zero, sub_zero] at hp; linarith, fun p hp h => h (by simpa using hp)⟩
    simpa using fine_compl this
  have b2 : FineEdge {p : ℝ × ℝ | p.1 ^ 2 + p.2 ^ 2 < pr ^ 2} := fine_circle 0 0 (pr ^ 2)
    ⟨fun p hp => by simpa using hp, fun p hp h => by
      have h' : p.1 ^ 2 + p.2 ^ 2 < pr ^ 2 := h
      rw [sub_zero, sub_zero] at hp; linarith⟩
  have ax : ∀ c : ℝ, FineEdge {p : ℝ × ℝ | |p.1| < c} := fun c =>
    fine_abs_fst c ⟨fun p hp => hp, fun p hp h => lt_asymm hp h⟩
  have ay : ∀ c : ℝ, FineEdge {p : ℝ × ℝ | |p.2| < c} := fun c =>
    fine_abs_snd c ⟨fun p hp => hp, fun p hp h => lt_asymm hp h⟩
  exact fine_inter b1 (fine_inter b2 (fine_inter (fine_compl (fine_inter (ax (sr + L)) (ay a)))
    (fine_compl (fine_inter (ay (sr + L)) (ax a)))))

theorem fine_shade (alpha : ℝ) : FineEdge {p : ℝ × ℝ | Spec.shade alpha p.1 p.2} := by
  have ax : ∀ c : ℝ, FineEdge {p : ℝ × ℝ | |p.1| < c} := fun c =>
    fine_abs_fst c ⟨fun p hp => hp, fun p hp h => lt_asymm hp h⟩
  have ax' : ∀ c : ℝ, FineEdge {p : ℝ × ℝ | c < |p.1|} := fun c => by
    have : FineEdge {p : ℝ × ℝ | c < |p.1|}ᶜ := fine_abs_fst c ⟨fun p hp h => lt_asymm hp h, fun p hp h => h hp⟩
    simpa using fine_compl this
  generalize hk : Spec.shadeD alpha / (Spec.shadeC alpha - 23.25) = k
  have wy : FineEdge {p : ℝ × ℝ | |p.2| < 1 + k * (|p.1| - 23.25)} := by
    refine fine_graph (f := fun x => 1 + k * (|x| - 23.25)) (by fun_prop) (K := |k|) (abs_nonneg _) (fun x y => ?_)
      ⟨fun p hp => hp, fun p hp h => lt_asymm hp h⟩
    rw [show 1 + k * (|x| - 23.25) - (1 + k * (|y| - 23.25)) = k * (|x| - |y|) by ring, abs_mul]
    exact mul_le_mul_of_nonneg_left (abs_abs_sub_abs_le_abs_sub x y) (abs_nonneg _)
  have := fine_union (fine_inter (ax' 23.25) (fine_inter (ax (Spec.shadeC alpha)) wy)) (ax' (Spec.shadeC alpha))
  rw [← hk] at this
  exact this

theorem fine_shade' (alpha : ℝ) : FineEdge {p : ℝ × ℝ | Spec.shade alpha p.2 p.1} := fine_swap (fine_shade alpha)

/-! ## Illuminations -/

theorem tame_real {e : ℝ × ℝ → ℝ} (he : ContDiff ℝ 1 e) (r D : ℝ) : Tame (fun p => (e p : ℂ)) r D :=
  tame_smooth (Complex.ofRealCLM.contDiff.comp he) r D

theorem tame_gauss (i c x0 y0 pr r D : ℝ) :
    Tame (fun p => (gaussAt i (.bare c) (.bare x0) (.bare y0) pr p.1 p.2 : ℂ)) r D := by
  refine tame_real ?_ r D
  unfold gaussAt
  fun_prop

theorem tame_parabolic (i c q x0 y0 pr r D : ℝ) (hpr : 0 < pr) (hq : 1 ≤ q) :
    Tame (fun p => (parabolicAt i (.bare c) q (.bare x0) (.bare y0) pr p.1 p.2 : ℂ)) r D := by
  have hq0 : 0 < q := by linarith
  have hpow : ContDiff ℝ 1 fun x : ℝ => x ^ q := by
    have := Real.contDiff_rpow_const_of_le (p := q) (n := 1) (by exact_mod_cast hq)
    exact_mod_cast this
  have hin : Tame (fun p : ℝ × ℝ => ((i * (taper (.bare c) + (1 - taper (.bare c)) *
      (1 - ((p.1 - x0) ^ 2 + (p.2 - y0) ^ 2) / pr ^ 2) ^ q) : ℝ) : ℂ)) r D := by
    refine tame_real ?_ r D
    refine contDiff_const.mul (contDiff_const.add (contDiff_const.mul (hpow.comp ?_)))
    fun_prop
  by_cases hk : ∃ k : ℤ, q = k
  · obtain ⟨k, rfl⟩ := hk
    have hk0 : 0 < k := by exact_mod_cast hq0
    obtain ⟨n, rfl⟩ := Int.eq_ofNat_of_zero_le hk0.le
    refine tame_real ?_ r D
    have : (fun p : ℝ × ℝ => parabolicAt i (.bare c) ((n : ℤ) : ℝ) (.bare x0) (.bare y0) pr p.1 p.2) =
        fun p => i * (taper (.bare c) + (1 - taper (.bare c)) *
          (1 - ((p.1 - offset (.bare x0)) ^ 2 + (p.2 - offset (.bare y0)) ^ 2) / pr ^ 2) ^ n) := by
      funext p
      rw [Int.cast_natCast]
      exact pedestal_outside_int i (.bare c) n (by exact_mod_cast hk0) (.bare x0) (.bare y0) pr hpr p.1 p.2
    rw [this]
    fun_prop
  · have hk' : ∀ k : ℤ, q ≠ k := fun k e => hk ⟨k, e⟩
    refine tame_piece (S := {p : ℝ × ℝ | (p.1 - x0) ^ 2 + (p.2 - y0) ^ 2 ≤ pr ^ 2}) (fine_circle x0 y0 (pr ^ 2)
      ⟨fun p hp => hp.le, fun p hp h => not_lt.2 h hp⟩) hin (tame_smooth (f := fun _ => 0) contDiff_const r D) ?_ ?_
    · intro p hp
      have hs : Real.sqrt ((p.1 - x0) ^ 2 + (p.2 - y0) ^ 2) ^ 2 = (p.1 - x0) ^ 2 + (p.2 - y0) ^ 2 :=
        Real.sq_sqrt (by positivity)
      congr 1
      rw [pedestal_value i (.bare c) q (.bare x0) (.bare y0) pr p.1 p.2 _ hpr hq0 (Real.sqrt_nonneg _) hs
        (by rw [← Real.sqrt_sq hpr.le]; exact Real.sqrt_le_sqrt hp)]
      unfold Spec.pedestal
      rw [div_pow, hs]
    · intro p hp
      rw [pedestal_outside i (.bare c) q (.bare x0) (.bare y0) pr hpr hk' p.1 p.2 (not_le.1 hp), Complex.ofReal_zero]

theorem opdAt_smooth (Fp F dz : ℝ) : ContDiff ℝ 1 fun p : ℝ × ℝ => opdAt Fp F p.1 p.2 dz := by
  have h : (fun p : ℝ × ℝ => opdAt Fp F p.1 p.2 dz) = fun p => dz * ((1 - (p.1 ^ 2 + p.2 ^ 2) / (2 * Fp) ^ 2) /
      (1 + (p.1 ^ 2 + p.2 ^ 2) / (2 * Fp) ^ 2) + (1 - (p.1 ^ 2 + p.2 ^ 2) / (2 * F) ^ 2) /
      (1 + (p.1 ^ 2 + p.2 ^ 2) / (2 * F) ^ 2)) := by
    funext p
    unfold opdAt
    have hs : Real.sqrt (p.1 ^ 2 + p.2 ^ 2) ^ 2 = p.1 ^ 2 + p.2 ^ 2 := Real.sq_sqrt (by positivity)
    simp only [div_pow, hs]
  rw [h]
  refine contDiff_const.mul (ContDiff.add ?_ ?_)
  · exact ContDiff.div (by fun_prop) (by fun_prop) fun p => by positivity
  · exact ContDiff.div (by fun_prop) (by fun_prop) fun p => by positivity

/-! ## Apertures -/

theorem jumps_aperture (I K : List ℝ) (dz wavel pr R : ℝ) (illum : ∀ ι : Type, Illum ι) (tel : ∀ ι : Type, TelGeo ι)
    (h0 : 0 < pr) (hR : 0 ≤ R) (hpr : ∀ ι, (tel ι).pr = pr) (n : ℕ) (hK : K.length = (n + 1) * (n + 2) / 2)
    (S : Set (ℝ × ℝ)) (b e o : ℝ × ℝ → ℝ) (hS : FineEdge S) (hd : ∀ p ∈ S, p.1 ^ 2 + p.2 ^ 2 < pr ^ 2)
    (hb1 : ∀ p ∈ S, b p = 1) (hb0 : ∀ p ∉ S, b p = 0) (he : Tame (fun p => (e p : ℂ)) pr (2 * R)) (ho : ContDiff ℝ 1 o)
    (hb' : ∀ (ι : Type) (x y : ι → ℝ), (tel ι).block x y = .ok fun q => b (x q, y q))
    (he' : ∀ (ι : Type) (x y : ι → ℝ), illum ι x y I pr = .ok fun q => e (x q, y q))
    (ho' : ∀ (ι : Type) (x y : ι → ℝ), (tel ι).opd x y dz = .ok fun q => o (x q, y q)) (A : ℝ × ℝ → ℂ)
    (hA : Spec.IsAperture A I K dz wavel illum tel) : ∃ M L κ, 0 ≤ L ∧ 0 ≤ κ ∧ Spec.Jumps A R M L κ := by
  obtain ⟨W, hW, hWs⟩ := C122_smooth n K hK pr
  let g : ℝ × ℝ → ℂ := fun p => (e p : ℂ) * Complex.exp ((((W p + o p / wavel) * 2 * Real.pi : ℝ) : ℂ) * Complex.I)
  have hAg : ∀ p, A p = ((b p : ℝ) : ℂ) * g p := by
    have h1 := hA (ℝ × ℝ) (fun p => p.1) fun p => p.2
    have h2 : aperture (fun p : ℝ × ℝ => p.1) (fun p => p.2) I K dz wavel (illum _) (tel _) = _ :=
      aperture_ok_iff.2 ⟨_, _, _, _, hb' _ _ _, by rw [hpr]; exact hW, ho' _ _ _, by rw [hpr]; exact he' _ _ _, rfl⟩
    have h3 := Except.ok.inj (h1.symm.trans h2)
    intro p
    rw [show A p = _ from congrFun h3 p]
    dsimp only [g]
    push_cast
    ring
  have hg : Tame g pr (2 * R) := by
    refine tame_mul he (tame_smooth ?_ _ _)
    have hin : ContDiff ℝ 1 fun p : ℝ × ℝ => (W p + o p / wavel) * 2 * Real.pi :=
      (((show ContDiff ℝ 1 W from by exact_mod_cast hWs 1).add (ho.div_const _)).mul contDiff_const).mul contDiff_const
    exact Complex.contDiff_exp.comp ((Complex.ofRealCLM.contDiff.comp hin).mul contDiff_const)
  have hsq : ∀ p ∈ S, p ∈ square pr := fun p hp =>
    ⟨abs_le_of_sq_le_sq (by nlinarith [sq_nonneg p.2, hd p hp]) h0.le,
      abs_le_of_sq_le_sq (by nlinarith [sq_nonneg p.1, hd p hp]) h0.le⟩
  obtain ⟨M, L, κ, hM0, hL0, hκ0, hM, hE⟩ := hg
  obtain ⟨τ, hτ0, hτ⟩ := hS (pr + 2 * R) (2 * R)
  have in_S : ∀ p ∈ S, A p = g p := fun p hp => by rw [hAg, hb1 p hp, Complex.ofReal_one, one_mul]
  have out_S : ∀ p ∉ S, A p = 0 := fun p hp => by rw [hAg, hb0 p hp, Complex.ofReal_zero, zero_mul]
  refine ⟨M, L, κ + τ, hL0, by positivity, fun p => ?_, fun δ hδ hD => ?_⟩
  · by_cases hp : p ∈ S
    · rw [in_S p hp]; exact hM p (hsq p hp)
    · rw [out_S p hp, norm_zero]; exact hM0
  · obtain ⟨E, hv, h⟩ := hE δ hδ hD
    refine ⟨E ∪ edge S δ ∩ square (pr + 2 * R), (measure_union_le _ _).trans ?_, fun p q hn e1 e2 => ?_⟩
    · rw [add_mul, ENNReal.ofReal_add (by positivity) (by positivity)]
      exact add_le_add hv (hτ δ hδ hD)
    · rw [Set.mem_union, not_or] at hn
      by_cases hpS : p ∈ S
      · have hqS : q ∈ S := by
          by_contra hq
          refine hn.2 ⟨⟨q, e1, e2, fun e => hq (e.1 hpS)⟩, (hsq p hpS).1.trans (by linarith), (hsq p hpS).2.trans (by linarith)⟩
        rw [in_S p hpS, in_S q hqS]
        exact h p (hsq p hpS) q (hsq q hqS) hn.1 e1 e2
      · have hqS : q ∉ S := by
          intro hq
          refine hn.2 ⟨⟨q, e1, e2, fun e => hpS (e.2 hq)⟩, ?_, ?_⟩
          · have := abs_sub_abs_le_abs_sub p.1 q.1
            have := (hsq q hq).1
            linarith
          · have := abs_sub_abs_le_abs_sub p.2 q.2
            have := (hsq q hq).2
            linarith
        rw [out_S p hpS, out_S q hqS, sub_zero, norm_zero]
        positivity

theorem effelsberg_zero : (fun ι : Type => (⟨blockEffelsberg 0, opdEffelsberg, 50⟩ : TelGeo ι)) =
    fun _ => manualTel 50 3.25 1 20 30 387.39435 := by
  funext ι
  have h1 : blockEffelsberg (ι := ι) 0 = blockManual 50 3.25 1 20 := by
    funext x y
    exact C26_zero_angle x y
  have h2 : opdEffelsberg (ι := ι) = opdManual 30 387.39435 := rfl
  rw [h1, h2]
  rfl

theorem sloped_shipped {pr : ℝ} {I : List ℝ} {illum : ∀ ι : Type, Illum ι} {tel : ∀ ι : Type, TelGeo ι}
    (h : Spec.Sloped pr I illum tel) : Spec.Shipped pr I illum tel := by
  cases h with
  | manualParabolic pr sr a L Fp F i c q x0 y0 hq => exact .manualParabolic _ _ _ _ _ _ _ _ _ _ _ (by linarith)
  | manualGauss pr sr a L Fp F i c x0 y0 mid => exact .manualGauss _ _ _ _ _ _ _ _ _ _ _
  | effelsbergParabolic alpha i c q x0 y0 ha0 ha1 hq =>
    rcases ha0.eq_or_lt with rfl | ha
    · rw [effelsberg_zero]
      exact .manualParabolic _ _ _ _ _ _ _ _ _ _ _ (by linarith)
    · exact .effelsbergParabolic _ _ _ _ _ _ ha ha1 (by linarith)
  | effelsbergGauss alpha i c x0 y0 mid ha0 ha1 =>
    rcases ha0.eq_or_lt with rfl | ha
    · rw [effelsberg_zero]
      exact .manualGauss _ _ _ _ _ _ _ _ _ _ _
    · exact .effelsbergGauss _ _ _ _ _ _ ha ha1

/-- **C129** the apertures of the package change at most in proportion to the step, but for a set whose area is at most
in proportion to it. -/
theorem C129_shipped (I K : List ℝ) (dz wavel pr bf : ℝ) (illum : ∀ ι : Type, Illum ι) (tel : ∀ ι : Type, TelGeo ι)
    (h : Spec.Sloped pr I illum tel) (h0 : 0 < pr) (hbf : 1 ≤ bf) (n : ℕ) (hK : K.length = (n + 1) * (n + 2) / 2) :
    (∀ ι, (tel ι).pr = pr) ∧ ∃ A, Spec.IsAperture A I K dz wavel illum tel ∧ Spec.Piecewise A (pr * bf) ∧
      ∃ M L κ, 0 ≤ L ∧ 0 ≤ κ ∧ Spec.Jumps A (pr * bf) M L κ := by
  classical
  obtain ⟨hpr, A, hA, hP⟩ := C96_shipped I K dz wavel pr bf illum tel (sloped_shipped h) h0 hbf n hK
  refine ⟨hpr, A, hA, hP, ?_⟩
  have hR : 0 ≤ pr * bf := by positivity
  clear hP
  have man : ∀ (pr sr a L : ℝ) (ι : Type) (x y : ι → ℝ), blockManual pr sr a L x y =
      .ok fun q => (fun p : ℝ × ℝ => if Spec.visible pr sr a L p.1 p.2 then (1 : ℝ) else 0) (x q, y q) := by
    intro pr sr a L ι x y
    obtain ⟨B, hB, hv⟩ := C24_value pr sr a L x y
    rw [hB]
    congr 1
    funext q
    dsimp only
    split_ifs with h
    · exact (hv q).1 h
    · exact (hv q).2 h
  have manual : ∀ (pr sr a L Fp F : ℝ) (illum : ∀ ι : Type, Illum ι) (e : ℝ × ℝ → ℝ), 0 < pr → 0 ≤ pr * bf →
      Tame (fun p => (e p : ℂ)) pr (2 * (pr * bf)) →
      (∀ (ι : Type) (x y : ι → ℝ), illum ι x y I pr = .ok fun q => e (x q, y q)) →
      Spec.IsAperture A I K dz wavel illum (fun _ => manualTel pr sr a L Fp F) →
      ∃ M L κ, 0 ≤ L ∧ 0 ≤ κ ∧ Spec.Jumps A (pr * bf) M L κ := by
    intro pr sr a L Fp F illum e h0 hR he he' hA
    exact jumps_aperture I K dz wavel pr (pr * bf) illum _ h0 hR (fun _ => rfl) n hK
      {p | Spec.visible pr sr a L p.1 p.2} _ e _ (fine_visible pr sr a L) (fun p hp => hp.2.1) (fun p hp => if_pos hp)
      (fun p hp => if_neg hp) he (opdAt_smooth Fp F dz) (man pr sr a L) he' (fun ι x y => rfl) A hA
  have eff : ∀ (alpha : ℝ) (illum : ∀ ι : Type, Illum ι) (e : ℝ × ℝ → ℝ), 0 < alpha → alpha < Real.pi / 2 →
      0 ≤ 50 * bf → Tame (fun p => (e p : ℂ)) 50 (2 * (50 * bf)) →
      (∀ (ι : Type) (x y : ι → ℝ), illum ι x y I 50 = .ok fun q => e (x q, y q)) →
      Spec.IsAperture A I K dz wavel illum (fun _ => ⟨blockEffelsberg alpha, opdEffelsberg, 50⟩) →
      ∃ M L κ, 0 ≤ L ∧ 0 ≤ κ ∧ Spec.Jumps A (50 * bf) M L κ := by
    intro alpha illum e ha0 ha1 hR he he' hA
    let S : Set (ℝ × ℝ) := {p | Spec.visible 50 3.25 1 20 p.1 p.2} ∩
      ({p | Spec.shade alpha p.1 p.2}ᶜ ∩ {p | Spec.shade alpha p.2 p.1}ᶜ)
    refine jumps_aperture I K dz wavel 50 (50 * bf) illum _ (by norm_num) hR (fun _ => rfl) n hK
      S (fun p => if p ∈ S then 1 else 0) e (fun p => opdAt 30 387.39435 p.1 p.2 dz)
      (fine_inter (fine_visible _ _ _ _) (fine_inter (fine_compl (fine_shade alpha)) (fine_compl (fine_shade' alpha))))
      (fun p hp => hp.1.2.1) (fun p hp => if_pos hp) (fun p hp => if_neg hp) he (opdAt_smooth 30 387.39435 dz) ?_ he'
      (fun ι x y => rfl) A hA
    intro ι x y
    obtain ⟨B, hB, hv⟩ := C25_value alpha ha0 ha1 x y
    show blockEffelsberg alpha x y = _
    rw [hB]
    congr 1
    funext q
    split_ifs with h
    · exact (hv q).1 h
    · exact (hv q).2 h
  cases h with
  | manualParabolic pr sr a L Fp F i c q x0 y0 hq =>
    exact manual pr sr a L Fp F _ _ h0 hR (tame_parabolic i c q x0 y0 pr _ _ h0 hq)
      (fun ι x y => (parabolic_array x y _ pr).1 i c q x0 y0 rfl) hA
  | manualGauss pr sr a L Fp F i c x0 y0 mid =>
    exact manual pr sr a L Fp F _ _ h0 hR (tame_gauss i c x0 y0 pr _ _) (fun ι x y => gauss_ignores_middle x y i c x0 y0 pr mid) hA
  | effelsbergParabolic alpha i c q x0 y0 ha0 ha1 hq =>
    rcases ha0.eq_or_lt with rfl | ha
    · rw [effelsberg_zero] at hA
      exact manual _ _ _ _ _ _ _ _ h0 hR (tame_parabolic i c q x0 y0 50 _ _ h0 hq)
        (fun ι x y => (parabolic_array x y _ 50).1 i c q x0 y0 rfl) hA
    · exact eff alpha _ _ ha ha1 hR (tame_parabolic i c q x0 y0 50 _ _ h0 hq)
        (fun ι x y => (parabolic_array x y _ 50).1 i c q x0 y0 rfl) hA
  | effelsbergGauss alpha i c x0 y0 mid ha0 ha1 =>
    rcases ha0.eq_or_lt with rfl | ha
    · rw [effelsberg_zero] at hA
      exact manual _ _ _ _ _ _ _ _ h0 hR (tame_gauss i c x0 y0 50 _ _) (fun ι x y => gauss_ignores_middle x y i c x0 y0 50 mid) hA
    · exact eff alpha _ _ ha ha1 hR (tame_gauss i c x0 y0 50 _ _) (fun ι x y => gauss_ignores_middle x y i c x0 y0 50 mid) hA

/-! ## Pixels -/

/-- A bounded function that vanishes outside the square. -/
theorem box_norm {G : ℝ × ℝ → ℂ} {R B : ℝ} (hR : 0 ≤ R) (hB : ∀ p, ‖G p‖ ≤ B)
    (hz : ∀ p : ℝ × ℝ, R < |p.1| ∨ R < |p.2| → G p = 0) : ‖∫ p, G p‖ ≤ 4 * R ^ 2 * B := by
  let Q : Set (ℝ × ℝ) := Set.Icc (-R) R ×ˢ Set.Icc (-R) R
  have hQ : MeasurableSet Q := measurableSet_Icc.prod measurableSet_Icc
  have hQf : volume Q ≠ ⊤ := by
    dsimp only [Q]
    rw [Measure.volume_eq_prod, Measure.prod_prod, Real.volume_Icc]
    exact ENNReal.mul_ne_top ENNReal.ofReal_ne_top ENNReal.ofReal_ne_top
  have hQv : volume.real Q = 4 * R ^ 2 := by
    dsimp only [Q]
    rw [Measure.volume_eq_prod, measureReal_prod_prod, Real.volume_real_Icc, max_eq_left (by linarith)]
    ring
  have i1 : Integrable (Q.indicator fun _ => B) := (integrable_indicator_iff hQ).2 (integrableOn_const hQf)
  refine (norm_integral_le_of_norm_le i1 (ae_of_all _ fun p => ?_)).trans (le_of_eq ?_)
  · by_cases hp : p ∈ Q
    · rw [Set.indicator_of_mem hp]
      exact hB p
    · rw [Set.indicator_of_notMem hp, hz p, norm_zero]
      by_contra hcon
      push Not at hcon
      exact hp ⟨abs_le.1 hcon.1, abs_le.1 hcon.2⟩
  · rw [integral_indicator_const _ hQ, hQv, smul_eq_mul]

theorem box_integrable {G : ℝ × ℝ → ℂ} {R B : ℝ} (hm : AEStronglyMeasurable G) (hB : ∀ p, ‖G p‖ ≤ B)
    (hz : ∀ p : ℝ × ℝ, R < |p.1| ∨ R < |p.2| → G p = 0) : Integrable G := by
  let Q : Set (ℝ × ℝ) := Set.Icc (-R) R ×ˢ Set.Icc (-R) R
  have hQ : MeasurableSet Q := measurableSet_Icc.prod measurableSet_Icc
  have hQf : volume Q ≠ ⊤ := by
    dsimp only [Q]
    rw [Measure.volume_eq_prod, Measure.prod_prod, Real.volume_Icc]
    exact ENNReal.mul_ne_top ENNReal.ofReal_ne_top ENNReal.ofReal_ne_top
  have i1 : Integrable (Q.indicator fun _ => B) := (integrable_indicator_iff hQ).2 (integrableOn_const hQf)
  refine i1.mono' hm (ae_of_all _ fun p => ?_)
  by_cases hp : p ∈ Q
  · rw [Set.indicator_of_mem hp]
    exact hB p
  · rw [Set.indicator_of_notMem hp, hz p, norm_zero]
    by_contra hcon
    push Not at hcon
    exact hp ⟨abs_le.1 hcon.1, abs_le.1 hcon.2⟩

theorem field_norm {A : ℝ × ℝ → ℂ} {R M : ℝ} (hR : 0 ≤ R) (hP : Spec.Piecewise A R) (hM : ∀ p, ‖A p‖ ≤ M) (wavel u v : ℝ) :
    ‖Spec.fourierField A wavel u v‖ ≤ 4 * R ^ 2 * M :=
  box_norm hR (fun p => by rw [norm_mul, wave_norm, mul_one]; exact hM p) fun p hp => by rw [hP.2.1 p hp, zero_mul]

/-- The field in directions that are near each other. -/
theorem integral_direction {A : ℝ × ℝ → ℂ} {R M : ℝ} (hR : 0 ≤ R) (hP : Spec.Piecewise A R) (hM : ∀ p, ‖A p‖ ≤ M)
    (wavel u v u' v' : ℝ) : ‖Spec.fourierField A wavel u v - Spec.fourierField A wavel u' v'‖ ≤
      4 * R ^ 2 * (M * (2 * Real.pi * (R * ((|u - u'| + |v - v'|) / |wavel|)))) := by
  have hpi := Real.pi_pos
  have hM0 : 0 ≤ M := (norm_nonneg _).trans (hM 0)
  have hm := measurable_of_ae_continuous hP.2.2
  have hi : ∀ u v : ℝ, Integrable fun p : ℝ × ℝ =>
      A p * Complex.exp (-(2 * Real.pi * Complex.I) * (((p.1 * u + p.2 * v) / wavel : ℝ) : ℂ)) := fun u v =>
    box_integrable (R := R) (B := M) (hm.mul (Continuous.aestronglyMeasurable (by fun_prop)))
      (fun p => by rw [norm_mul, wave_norm, mul_one]; exact hM p) fun p hp => by rw [hP.2.1 p hp, zero_mul]
  unfold Spec.fourierField
  rw [← integral_sub (hi u v) (hi u' v')]
  refine box_norm hR (fun p => ?_) fun p hp => by rw [hP.2.1 p hp, zero_mul, zero_mul, sub_zero]
  by_cases hp : R < |p.1| ∨ R < |p.2|
  · rw [hP.2.1 p hp, zero_mul, zero_mul, sub_zero, norm_zero]
    positivity
  · push Not at hp
    rw [← mul_sub, norm_mul]
    refine mul_le_mul (hM p) ((wave_sub _ _).trans (mul_le_mul_of_nonneg_left ?_ (by positivity))) (norm_nonneg _) hM0
    rw [← sub_div, abs_div, mul_div_assoc']
    refine div_le_div_of_nonneg_right ?_ (abs_nonneg _)
    rw [show p.1 * u + p.2 * v - (p.1 * u' + p.2 * v') = p.1 * (u - u') + p.2 * (v - v') by ring]
    refine (abs_add_le _ _).trans ?_
    rw [abs_mul, abs_mul]
    have c1 := mul_le_mul_of_nonneg_right hp.1 (abs_nonneg (u - u'))
    have c2 := mul_le_mul_of_nonneg_right hp.2 (abs_nonneg (v - v'))
    linarith

/-- **C129** with the functions of the package: there is one constant such that at every resolution and for every
pixel the computed field differs from the Fourier integral in the direction of the pixel by at most the constant times
one plus the distance from the axis in wavelengths per metre, over the resolution less one. -/
theorem C129_package (I K : List ℝ) (dz wavel pr bf : ℝ) (illum : ∀ ι : Type, Illum ι) (tel : ∀ ι : Type, TelGeo ι)
    (h : Spec.Sloped pr I illum tel) (h0 : 0 < pr) (hbf : 1 ≤ bf) (hw : wavel ≠ 0) (o : ℕ)
    (hK : K.length = (o + 1) * (o + 2) / 2) :
    ∃ (A : ℝ × ℝ → ℂ) (C : ℝ), Spec.IsAperture A I K dz wavel illum tel ∧ 0 ≤ C ∧ ∀ N : ℕ, 2 ≤ N →
      ∃ P : Pattern N, radiationPattern I K dz wavel (illum _) (tel _) bf = .ok P ∧ ∀ i j : Fin N,
        ‖(((2 * (pr * bf) / ((N : ℝ) - 1)) ^ 2 : ℝ) : ℂ) *
            Complex.exp (2 * Real.pi * Complex.I * ((pr * bf * (P.u j + P.v i) / wavel : ℝ) : ℂ)) * P.F (i, j) -
            Spec.fourierField A wavel (P.u j) (P.v i)‖ ≤ C * (1 + (|P.u j| + |P.v i|) / |wavel|) / ((N : ℝ) - 1) := by
  have hpi := Real.pi_pos
  obtain ⟨hpr, A, hA, hR, M, L, κ, hL0, hκ0, hJ⟩ := C129_shipped I K dz wavel pr bf illum tel h h0 hbf o hK
  have hM0 : 0 ≤ M := (norm_nonneg _).trans (hJ.1 0)
  refine ⟨A, (16 * (pr * bf) ^ 2 * (L + 2 * Real.pi * M) + 2 * M * κ) * (2 * (pr * bf)), hA, by positivity, fun N hN => ?_⟩
  obtain ⟨P, hP⟩ := (C14_ok_iff I K dz wavel N hN (illum _) (tel _) bf).2 ⟨_, hA _ _ _⟩
  refine ⟨P, hP, fun i j => ?_⟩
  refine (C129_rate I K dz wavel pr bf illum tel A h0 (by linarith) hw hpr hA hR M L κ hL0 hκ0 hJ N P hP i j).trans ?_
  have hn1 : (1 : ℝ) ≤ (N : ℝ) - 1 := by
    have : (2 : ℝ) ≤ N := by exact_mod_cast hN
    linarith
  rw [mul_div_assoc', div_le_div_iff_of_pos_right (by linarith)]
  have ht : 0 ≤ (|P.u j| + |P.v i|) / |wavel| := by positivity
  generalize (|P.u j| + |P.v i|) / |wavel| = t at *
  have hR0 : 0 < pr * bf := by positivity
  generalize pr * bf = R at *
  have e : (16 * R ^ 2 * (L + 2 * Real.pi * M) + 2 * M * κ) * (2 * R) * (1 + t) -
      (16 * R ^ 2 * (L + 2 * Real.pi * M * t) + 2 * M * κ) * (2 * R) =
      2 * R * (16 * R ^ 2 * (L * t + 2 * Real.pi * M) + 2 * M * κ * t) := by ring
  have : 0 ≤ 2 * R * (16 * R ^ 2 * (L * t + 2 * Real.pi * M) + 2 * M * κ * t) := by positivity
  linarith

/-- **C129** the power in the pixel `n` rows and `m` columns from the centre: one constant for all resolutions and all
pixels. -/
theorem C129_pixel (I K : List ℝ) (dz wavel pr bf : ℝ) (illum : ∀ ι : Type, Illum ι) (tel : ∀ ι : Type, TelGeo ι)
    (h : Spec.Sloped pr I illum tel) (h0 : 0 < pr) (hbf : 1 ≤ bf) (hw : wavel ≠ 0) (o : ℕ)
    (hK : K.length = (o + 1) * (o + 2) / 2) :
    ∃ (A : ℝ × ℝ → ℂ) (C : ℝ), Spec.IsAperture A I K dz wavel illum tel ∧ 0 ≤ C ∧ ∀ N : ℕ, 2 ≤ N →
      ∃ P : Pattern N, radiationPattern I K dz wavel (illum _) (tel _) bf = .ok P ∧ ∀ (i j : Fin N) (m n : ℤ),
        ((j : ℕ) : ℤ) = (N / 2 : ℕ) + m → ((i : ℕ) : ℤ) = (N / 2 : ℕ) + n →
        |(2 * (pr * bf) / ((N : ℝ) - 1)) ^ 4 * ‖P.F (i, j)‖ ^ 2 -
          ‖Spec.fourierField A wavel (m * wavel / (2 * (pr * bf))) (n * wavel / (2 * (pr * bf)))‖ ^ 2| ≤
            C * (1 + |(m : ℝ)| + |(n : ℝ)|) / ((N : ℝ) - 1) := by
  have hpi := Real.pi_pos
  obtain ⟨hpr, A, hA, hR, M, L, κ, hL0, hκ0, hJ⟩ := C129_shipped I K dz wavel pr bf illum tel h h0 hbf o hK
  have hM0 : 0 ≤ M := (norm_nonneg _).trans (hJ.1 0)
  have hR0 : 0 < pr * bf := by positivity
  obtain ⟨R, hRe⟩ : ∃ R, R = pr * bf := ⟨_, rfl⟩
  rw [← hRe] at hR hJ hR0
  refine ⟨A, ((16 * R ^ 2 * L + 2 * M * κ) * (2 * R) + 36 * R ^ 2 * (Real.pi * M)) * (20 * R ^ 2 * M), hA, by positivity,
    fun N hN => ?_⟩
  obtain ⟨P, hP⟩ := (C14_ok_iff I K dz wavel N hN (illum _) (tel _) bf).2 ⟨_, hA _ _ _⟩
  refine ⟨P, hP, fun i j m n hj hi => ?_⟩
  have hrate := C129_rate I K dz wavel pr bf illum tel A h0 (by linarith) hw hpr hA (by rwa [← hRe]) M L κ hL0 hκ0
    (by rwa [← hRe]) N P hP i j
  have hsum := scaled_sum I K dz wavel pr bf illum tel A h0 (by linarith) hw hpr hA N P hP i j
  have hu := (pixel_coord (hpr _) hP j m hj).1
  have hv := (pixel_coord (hpr _) hP i n hi).2
  rw [← hRe] at hrate hsum hu hv ⊢
  have hn1 : (1 : ℝ) ≤ (N : ℝ) - 1 := by
    have : (2 : ℝ) ≤ N := by exact_mod_cast hN
    linarith
  obtain ⟨hh, hhe⟩ : ∃ hh, hh = 2 * R / ((N : ℝ) - 1) := ⟨_, rfl⟩
  have hpos : 0 < hh := by rw [hhe]; exact div_pos (by linarith) (by linarith)
  have hmul : hh * ((N : ℝ) - 1) = 2 * R := by rw [hhe]; exact div_mul_cancel₀ _ (by linarith)
  rw [← hhe] at hrate hsum ⊢
  generalize ha : ((hh ^ 2 : ℝ) : ℂ) * Complex.exp (2 * Real.pi * Complex.I * ((R * (P.u j + P.v i) / wavel : ℝ) : ℂ)) *
    P.F (i, j) = a at hrate hsum
  have hanorm : ‖a‖ = hh ^ 2 * ‖P.F (i, j)‖ := by
    rw [← ha, norm_mul, norm_mul, Complex.norm_real]
    have he : ∀ t : ℝ, ‖Complex.exp (2 * Real.pi * Complex.I * (t : ℂ))‖ = 1 := by
      intro t
      rw [show 2 * Real.pi * Complex.I * (t : ℂ) = ((2 * Real.pi * t : ℝ) : ℂ) * Complex.I by push_cast; ring]
      exact Complex.norm_exp_ofReal_mul_I _
    rw [he, mul_one, Real.norm_eq_abs, abs_of_nonneg (by positivity)]
  have hale : ‖a‖ ≤ 16 * R ^ 2 * M := by
    rw [hsum]
    refine (norm_sum_le_of_le _ (n := fun _ => (N : ℝ) * (hh * hh * M)) fun s _ => ?_).trans ?_
    · refine (norm_sum_le_of_le _ (n := fun _ => hh * hh * M) fun t _ => ?_).trans ?_
      · rw [norm_mul, norm_mul, wave_norm, mul_one, Complex.norm_real, Real.norm_eq_abs, abs_of_nonneg (by positivity)]
        exact mul_le_mul_of_nonneg_left (hJ.1 _) (by positivity)
      · rw [Finset.sum_const, Finset.card_range, nsmul_eq_mul]
    · rw [Finset.sum_const, Finset.card_range, nsmul_eq_mul]
      have hNh : (N : ℝ) * hh ≤ 4 * R := by nlinarith
      have h2 : ((N : ℝ) * hh) * ((N : ℝ) * hh) ≤ (4 * R) * (4 * R) := mul_self_le_mul_self (by positivity) hNh
      calc (N : ℝ) * (N * (hh * hh * M)) = ((N : ℝ) * hh) * ((N : ℝ) * hh) * M := by ring
        _ ≤ (4 * R) * (4 * R) * M := mul_le_mul_of_nonneg_right h2 hM0
        _ = _ := by ring
  obtain ⟨b, hb⟩ : ∃ b, b = Spec.fourierField A wavel (m * wavel / (2 * R)) (n * wavel / (2 * R)) := ⟨_, rfl⟩
  have hble : ‖b‖ ≤ 4 * R ^ 2 * M := hb ▸ field_norm hR0.le hR hJ.1 _ _ _
  rw [← hb]
  have hNpos : (0 : ℝ) < N := by linarith
  have hinv : 1 / (N : ℝ) ≤ 1 / ((N : ℝ) - 1) := one_div_le_one_div_of_le (by linarith) (by linarith)
  have hinv0 : 0 < 1 / (N : ℝ) := by positivity
  have hinv1 : 1 / (N : ℝ) ≤ 1 := by rw [div_le_one hNpos]; linarith
  have hwa : 0 < |wavel| := abs_pos.2 hw
  have hdir : ∀ k : ℤ, |k * wavel / (2 * R)| / |wavel| = |(k : ℝ)| / (2 * R) := by
    intro k
    rw [abs_div, abs_mul, abs_of_pos (show 0 < 2 * R by linarith)]
    field_simp
  have hlen : (|P.u j| + |P.v i|) / |wavel| ≤ (|(m : ℝ)| + |(n : ℝ)|) / (2 * R) := by
    rw [hu, hv, abs_mul, abs_mul, abs_of_nonneg (by linarith : 0 ≤ 1 - 1 / (N : ℝ)), ← add_mul, mul_div_right_comm, add_div,
      hdir, hdir, ← add_div]
    exact mul_le_of_le_one_right (by positivity) (by linarith)
  have hgap : (|P.u j - m * wavel / (2 * R)| + |P.v i - n * wavel / (2 * R)|) / |wavel| ≤
      (|(m : ℝ)| + |(n : ℝ)|) / (2 * R) * (1 / ((N : ℝ) - 1)) := by
    have e : ∀ x : ℝ, |x * (1 - 1 / (N : ℝ)) - x| = |x| * (1 / N) := by
      intro x
      rw [show x * (1 - 1 / (N : ℝ)) - x = -(x * (1 / N)) by ring, abs_neg, abs_mul, abs_of_pos hinv0]
    rw [hu, hv, e, e, ← add_mul, mul_div_right_comm, add_div, hdir, hdir, ← add_div]
    exact mul_le_mul_of_nonneg_left hinv (by positivity)
  have hnear := integral_direction hR0.le hR hJ.1 wavel (P.u j) (P.v i) (m * wavel / (2 * R)) (n * wavel / (2 * R))
  rw [← hb] at hnear
  have hk0 : 0 ≤ |(m : ℝ)| + |(n : ℝ)| := by positivity
  rw [add_assoc]
  generalize |(m : ℝ)| + |(n : ℝ)| = k at *
  generalize (|P.u j| + |P.v i|) / |wavel| = t at *
  generalize (|P.u j - m * wavel / (2 * R)| + |P.v i - n * wavel / (2 * R)|) / |wavel| = g at *
  have hab : ‖a - b‖ ≤ ((16 * R ^ 2 * L + 2 * M * κ) * (2 * R) + 36 * R ^ 2 * (Real.pi * M)) * (1 + k) / ((N : ℝ) - 1) := by
    have h1 : ‖a - b‖ ≤ (16 * R ^ 2 * (L + 2 * Real.pi * M * t) + 2 * M * κ) * hh +
        4 * R ^ 2 * (M * (2 * Real.pi * (R * g))) := by
      have := norm_sub_le_norm_sub_add_norm_sub a (Spec.fourierField A wavel (P.u j) (P.v i)) b
      linarith
    have h2 : (16 * R ^ 2 * (L + 2 * Real.pi * M * t) + 2 * M * κ) * hh ≤
        (16 * R ^ 2 * (L + 2 * Real.pi * M * (k / (2 * R))) + 2 * M * κ) * hh := by gcongr
    have h3 : 4 * R ^ 2 * (M * (2 * Real.pi * (R * g))) ≤
        4 * R ^ 2 * (M * (2 * Real.pi * (R * (k / (2 * R) * (1 / ((N : ℝ) - 1)))))) := by gcongr
    have hN0 : (N : ℝ) - 1 ≠ 0 := by linarith
    have e2 : (16 * R ^ 2 * (L + 2 * Real.pi * M * (k / (2 * R))) + 2 * M * κ) * hh +
        4 * R ^ 2 * (M * (2 * Real.pi * (R * (k / (2 * R) * (1 / ((N : ℝ) - 1)))))) =
        ((16 * R ^ 2 * L + 2 * M * κ) * (2 * R) + 36 * R ^ 2 * (Real.pi * M) * k) / ((N : ℝ) - 1) := by
      rw [hhe]
      field_simp
      ring
    have e3 : ((16 * R ^ 2 * L + 2 * M * κ) * (2 * R) + 36 * R ^ 2 * (Real.pi * M) * k) / ((N : ℝ) - 1) ≤
        ((16 * R ^ 2 * L + 2 * M * κ) * (2 * R) + 36 * R ^ 2 * (Real.pi * M)) * (1 + k) / ((N : ℝ) - 1) := by
      rw [div_le_div_iff_of_pos_right (by linarith)]
      have : 0 ≤ (16 * R ^ 2 * L + 2 * M * κ) * (2 * R) * k + 36 * R ^ 2 * (Real.pi * M) := by positivity
      linarith
    linarith
  have e4 : hh ^ 4 * ‖P.F (i, j)‖ ^ 2 - ‖b‖ ^ 2 = (‖a‖ - ‖b‖) * (‖a‖ + ‖b‖) := by
    rw [hanorm]
    ring
  rw [e4, abs_mul, abs_of_nonneg (by positivity : 0 ≤ ‖a‖ + ‖b‖)]
  have h5 := (abs_norm_sub_norm_le a b).trans hab
  have h6 : ‖a‖ + ‖b‖ ≤ 20 * R ^ 2 * M := by linarith
  refine (mul_le_mul h5 h6 (by positivity) ((abs_nonneg _).trans h5)).trans (le_of_eq ?_)
  ring

/-! ## Cases -/

/-- The Effelsberg telescope of the scripts, without shade: 50 m, order 5, a box of five radii, 9 mm. -/
example : ∃ (A : ℝ × ℝ → ℂ) (C : ℝ), 0 ≤ C ∧ ∀ N : ℕ, 2 ≤ N →
    ∃ P : Pattern N, radiationPattern [1, -14.5, 2, 0, 0] (List.replicate 21 0.1) 0.022 0.009 illumParabolic
      ⟨blockEffelsberg 0, opdEffelsberg, 50⟩ 5 = .ok P ∧ ∀ c : Fin N, (c : ℕ) = N / 2 →
        |(500 / ((N : ℝ) - 1)) ^ 4 * ‖P.F (c, c)‖ ^ 2 - ‖∫ p, A p‖ ^ 2| ≤ C / ((N : ℝ) - 1) := by
  obtain ⟨A, C, -, h0, h⟩ := C129_pixel [1, -14.5, 2, 0, 0] (List.replicate 21 0.1) 0.022 0.009 50 5
    (fun _ => illumParabolic) (fun _ => ⟨blockEffelsberg 0, opdEffelsberg, 50⟩)
    (.effelsbergParabolic _ _ _ _ _ _ le_rfl (by positivity) (by norm_num)) (by norm_num)
    (by norm_num) (by norm_num) 5 (by simp)
  refine ⟨A, C, h0, fun N hN => ?_⟩
  obtain ⟨P, hP, hF⟩ := h N hN
  refine ⟨P, hP, fun c hc => ?_⟩
  have := hF c c 0 0 (by simp [hc]) (by simp [hc])
  have e : (2 * (50 * 5) : ℝ) = 500 := by norm_num
  simpa [Spec.fourierField, e] using this

/-- A disc jumps: from a point just inside the edge to one just outside the value falls from one to zero, so that a
constant without the area would not do. -/
example : Spec.Jumps (fun p : ℝ × ℝ => if p.1 ^ 2 + p.2 ^ 2 < 1 then 1 else 0) 1 1 0 (4 * Real.pi * 5 * 2) ∧
    ¬ ∃ L : ℝ, ∀ δ, 0 < δ → δ ≤ 2 → ∀ p q : ℝ × ℝ, |p.1 - q.1| ≤ δ → |p.2 - q.2| ≤ δ →
      ‖(if p.1 ^ 2 + p.2 ^ 2 < 1 then (1 : ℂ) else 0) - if q.1 ^ 2 + q.2 ^ 2 < 1 then 1 else 0‖ ≤ L * δ := by
  constructor
  · refine ⟨fun p => by dsimp only; split_ifs <;> simp, fun δ hδ hD => ⟨edge {p : ℝ × ℝ | p.1 ^ 2 + p.2 ^ 2 < 1} δ, ?_, fun p q hp h1 h2 => ?_⟩⟩
    · have hn : ∀ p : ℝ × ℝ, Real.sqrt ((p.1 - 0) ^ 2 + (p.2 - 0) ^ 2) = ‖(⟨p.1 - 0, p.2 - 0⟩ : ℂ)‖ := fun p =>
        (Complex.norm_eq_sqrt_sq_add_sq ⟨p.1 - 0, p.2 - 0⟩).symm
      have hsub := edge_sub (S := {p : ℝ × ℝ | p.1 ^ 2 + p.2 ^ 2 < 1})
        (g := fun p => Real.sqrt ((p.1 - 0) ^ 2 + (p.2 - 0) ^ 2) - 1) (K := 2) (δ := δ)
        (fun p q e1 e2 => by
          rw [sub_sub_sub_cancel_right, hn, hn]
          refine (abs_norm_sub_norm_le _ _).trans ((Complex.norm_le_abs_re_add_abs_im _).trans ?_)
          simp only [Complex.sub_re, Complex.sub_im, sub_sub_sub_cancel_right]
          linarith)
        (fun p hp => by
          have h1 : Real.sqrt ((p.1 - 0) ^ 2 + (p.2 - 0) ^ 2) < 1 := by linarith
          rw [sub_zero, sub_zero, Real.sqrt_lt' one_pos, one_pow] at h1
          exact h1)
        (fun p hp h => by
          have h1 : 1 < Real.sqrt ((p.1 - 0) ^ 2 + (p.2 - 0) ^ 2) := by linarith
          have h' : p.1 ^ 2 + p.2 ^ 2 < 1 := h
          rw [sub_zero, sub_zero, Real.lt_sqrt zero_le_one, one_pow] at h1
          linarith)
      refine (measure_mono hsub).trans ((ring_area 0 0 1 (2 * δ) 4 zero_le_one (by linarith) (by linarith)).trans
        (le_of_eq ?_))
      congr 1
      ring
    · have hiff : p.1 ^ 2 + p.2 ^ 2 < 1 ↔ q.1 ^ 2 + q.2 ^ 2 < 1 := by
        by_contra hne
        exact hp ⟨q, h1, h2, hne⟩
      by_cases h : p.1 ^ 2 + p.2 ^ 2 < 1
      · simp [h, hiff.1 h]
      · have hq : ¬ q.1 ^ 2 + q.2 ^ 2 < 1 := fun e => h (hiff.2 e)
        simp only [if_neg h, if_neg hq, sub_zero, norm_zero, zero_mul, le_refl]
  · rintro ⟨L, hL⟩
    have hL0 : 0 < |L| + 1 := by positivity
    have hd : 0 < 1 / (|L| + 1) := by positivity
    have hd1 : 1 / (|L| + 1) ≤ 1 := by rw [div_le_one hL0]; linarith [abs_nonneg L]
    have := hL (1 / (|L| + 1)) hd (by linarith) (1 - 1 / (|L| + 1), 0) (1, 0) (by
      dsimp only
      rw [sub_sub_cancel_left, abs_neg, abs_of_pos hd]) (by simp [hL0.le])
    dsimp only at this
    rw [if_pos (by nlinarith), if_neg (by norm_num), sub_zero, norm_one, mul_one_div, le_div_iff₀ hL0] at this
    linarith [le_abs_self L]

end Verif.Props
