import Verif.Props.PlotBeam
import Verif.Props.Units

/-!
# C88: the limits of the figure of the fitted beam, for coordinates in any unit

`fit_zpoly` takes the least and the greatest coordinate in radians and multiplies them by the unit of
`u_data` (core.py:438-443).  For coordinates in radians these are the limits of the observed maps; for a
unit of `s` radians they are `s` times smaller.
-/

namespace Verif.Props

open Verif Verif.Np Verif.Aperture Verif.Units Verif.Units.Val Verif.Plot Verif.MathFn

/-- The unit of `u_data` is `s` radians. -/
def Spec.UnitOf {ι : Type} (v : Val ι) (s : ℝ) : Prop := ∃ x, v = .qty x ⟨s, Pi.single .angle 1⟩

theorem range_rad {M : ℕ} {u : Fin M → ℝ} {a b : ℝ} (h : Spec.Range u a b) :
    minR u = .ok a ∧ maxR u = .ok b := by
  have := minR_scale u 1 one_pos a b h
  simpa using this

/-- **C88.**  The limits: the range of the first map times the size of the unit of `u_data`. -/
theorem C88_limits {M : ℕ} (u v : Val (Fin 3 × Fin M)) (ur vr : Fin 3 × Fin M → ℝ)
    (hu : Spec.Radians u ur) (hv : Spec.Radians v vr) (s : ℝ) (hs : Spec.UnitOf u s)
    (ua ub va vb : ℝ) (hur : Spec.Range (fun k => ur (0, k)) ua ub)
    (hvr : Spec.Range (fun k => vr (0, k)) va vb) :
    ∃ p, fitPlimU u v = .ok p ∧ Spec.Radians p ![ua * s, ub * s, va * s, vb * s] := by
  have h1 := toValue_rad (radians_iff.1 hu)
  have h2 := toValue_rad (radians_iff.1 hv)
  obtain ⟨x, rfl⟩ := hs
  obtain ⟨_, c, hc, he, -⟩ := hu
  simp only [Val.qty.injEq, AUnit.mk.injEq] at he
  obtain ⟨-, rfl, -⟩ := he
  refine ⟨_, by
    simp only [fitPlimU, h1, h2, (range_rad hur).1, (range_rad hur).2, (range_rad hvr).1,
      (range_rad hvr).2, bind, Except.bind, pure, Except.pure]
    rfl, ?_⟩
  refine ⟨![ua, ub, va, vb], s, hc, ?_, ?_⟩
  · simp [Val.mul, Val.bc, Val.comap]
  · intro q
    fin_cases q <;> rfl

/-- A map without positions: `min` raises. -/
theorem C88_empty (u v : Val (Fin 3 × Fin 0)) (ur vr : Fin 3 × Fin 0 → ℝ) (hu : Spec.Radians u ur)
    (hv : Spec.Radians v vr) : fitPlimU u v = .error .valueError := by
  have h1 := toValue_rad (radians_iff.1 hu)
  have h2 := toValue_rad (radians_iff.1 hv)
  simp only [fitPlimU, h1, h2, bind, Except.bind]
  rfl

/-- **C88.**  What the figure shows: each panel of the fitted beam ends at the range of the first
observed map, in the unit of the figure, times the size of the unit of `u_data`. -/
theorem C88_figure {M N : ℕ} (u v : Val (Fin 3 × Fin M)) (ur vr : Fin 3 × Fin M → ℝ)
    (hu : Spec.Radians u ur) (hv : Spec.Radians v vr) (s : ℝ) (hs : Spec.UnitOf u s)
    (ua ub va vb : ℝ) (hur : Spec.Range (fun k => ur (0, k)) ua ub)
    (hvr : Spec.Range (fun k => vr (0, k)) va vb) (p : Val (Fin 4)) (hp : fitPlimU u v = .ok p)
    (l : Fin 4 → ℝ) (hl : Spec.Radians p l) (org : Origin) (I K : List ℝ) (d0 d1 d2 : ℝ)
    (wavel : ℝ) (illum : Illum (Fin N × Fin N)) (tel : TelGeo (Fin N × Fin N)) (bf c : ℝ)
    (hpr : 0 < tel.pr) (hbf : 0 < bf) (hw : 0 < wavel) (hc : 0 < c) (figs : List (Panel N ℝ))
    (h : plotBeam org I K [d0, d1, d2] wavel illum tel bf (some (l 0, l 1, l 2, l 3)) c = .ok figs) :
    figs.length = 3 ∧ ∀ pl ∈ figs, pl.xlim = some (ua * s * c, ub * s * c) ∧
      pl.ylim = some (va * s * c, vb * s * c) := by
  obtain ⟨p', hp', hr⟩ := C88_limits u v ur vr hu hv s hs ua ub va vb hur hvr
  rw [hp] at hp'
  cases hp'
  have hl' : l = ![ua * s, ub * s, va * s, vb * s] := by
    obtain ⟨x, a, ha, rfl, hx⟩ := hl
    obtain ⟨y, b, hb, he, hy⟩ := hr
    simp only [Val.qty.injEq, AUnit.mk.injEq] at he
    obtain ⟨rfl, rfl, -⟩ := he
    funext q
    rw [← hx, ← hy]
  obtain ⟨m0, m1, m2, lim, p0, p1, p2, g0, g1, g2, hlim, t0, t1, t2, rfl⟩ := plotBeam_inv h
  rcases hlim with hlim | ⟨hlim, -⟩
  · cases hlim
    subst hl'
    refine ⟨rfl, ?_⟩
    intro pl hpl
    simp only [List.mem_cons, List.not_mem_nil, or_false] at hpl
    rcases hpl with rfl | rfl | rfl
    · exact (panel_shows hpr hbf hw hc g0 t0).2
    · exact (panel_shows hpr hbf hw hc g1 t1).2
    · exact (panel_shows hpr hbf hw hc g2 t2).2
  · cases hlim

/-- **C88.**  The limits are those of the observed map exactly when `u_data` is in radians: for a map with
two different values of the first coordinate. -/
theorem C88_radians_iff {M : ℕ} (u v : Val (Fin 3 × Fin M)) (ur vr : Fin 3 × Fin M → ℝ)
    (hu : Spec.Radians u ur) (hv : Spec.Radians v vr) (s : ℝ) (hs : Spec.UnitOf u s)
    (ua ub va vb : ℝ) (hur : Spec.Range (fun k => ur (0, k)) ua ub)
    (hvr : Spec.Range (fun k => vr (0, k)) va vb) (hne : ua < ub) (p : Val (Fin 4))
    (hp : fitPlimU u v = .ok p) : Spec.Radians p ![ua, ub, va, vb] ↔ s = 1 := by
  obtain ⟨p', hp', hr⟩ := C88_limits u v ur vr hu hv s hs ua ub va vb hur hvr
  rw [hp] at hp'
  cases hp'
  constructor
  · rintro ⟨x, a, ha, rfl, hx⟩
    obtain ⟨y, b, hb, he, hy⟩ := hr
    simp only [Val.qty.injEq, AUnit.mk.injEq] at he
    obtain ⟨rfl, rfl, -⟩ := he
    have e0 : ua = ua * s := (hx 0).symm.trans (hy 0)
    have e1 : ub = ub * s := (hx 1).symm.trans (hy 1)
    have : (ub - ua) * (s - 1) = 0 := by linarith
    rcases mul_eq_zero.1 this with h | h <;> linarith
  · rintro rfl
    simpa using hr

/-- A first map from −1 to 1 and from −2 to 2 degrees: the limits are π/180 times as small. -/
example : ∃ p, fitPlimU (M := 2) (.qty (fun q => if q.2 = 0 then -1 else 1) .deg)
      (.qty (fun q => if q.2 = 0 then -2 else 2) .deg) = .ok p ∧
    Spec.Radians p ![-1 * (Real.pi / 180) * (Real.pi / 180), 1 * (Real.pi / 180) * (Real.pi / 180),
      -2 * (Real.pi / 180) * (Real.pi / 180), 2 * (Real.pi / 180) * (Real.pi / 180)] ∧
    ¬ Spec.Radians p ![-1 * (Real.pi / 180), 1 * (Real.pi / 180), -2 * (Real.pi / 180),
      2 * (Real.pi / 180)] := by
  have hpi : 0 < Real.pi / 180 := by positivity
  have h4 := Real.pi_le_four
  have hr : ∀ t : ℝ, 0 < t → Spec.Range (n := 2)
      (fun k => (if k = 0 then -t else t) * (Real.pi / 180)) (-t * (Real.pi / 180)) (t * (Real.pi / 180)) := by
    intro t ht
    refine ⟨⟨0, by simp⟩, ⟨1, by simp⟩, fun k => ?_⟩
    have : 0 < t * (Real.pi / 180) := by positivity
    fin_cases k <;> simp <;> nlinarith
  have hu : Spec.Radians (ι := Fin 3 × Fin 2) (.qty (fun q => if q.2 = 0 then -1 else 1) .deg)
      (fun q => (if q.2 = 0 then -1 else 1) * (Real.pi / 180)) := ⟨_, _, hpi, rfl, fun _ => rfl⟩
  have hv : Spec.Radians (ι := Fin 3 × Fin 2) (.qty (fun q => if q.2 = 0 then -2 else 2) .deg)
      (fun q => (if q.2 = 0 then -2 else 2) * (Real.pi / 180)) := ⟨_, _, hpi, rfl, fun _ => rfl⟩
  obtain ⟨p, h1, h2⟩ := C88_limits _ _ _ _ hu hv (Real.pi / 180) ⟨_, rfl⟩ _ _ _ _ (hr 1 one_pos)
    (hr 2 two_pos)
  refine ⟨p, h1, h2, fun h => ?_⟩
  have := (C88_radians_iff _ _ _ _ hu hv (Real.pi / 180) ⟨_, rfl⟩ _ _ _ _ (hr 1 one_pos)
    (hr 2 two_pos) (by linarith) p h1).1 h
  linarith

end Verif.Props
