import Verif.Props.PlotVar
import Verif.Props.Optics
import Verif.Props.Latex
import Verif.Props.MathFn
import Verif.Props.ActFit

/-!
# C72: what the beam and phase figures show
-/

namespace Verif.Props

open Verif Verif.Np Verif.Aperture Verif.Plot Verif.MathFn Verif.AuxFn

/-! ## Lemmas -/

theorem arrMin_fin (l : List ℝ) (h : l ≠ []) :
    ∃ x ∈ l, arrMin (l.map Fl.fin) = .ok (.fin x) ∧ ∀ y ∈ l, x ≤ y := by
  obtain ⟨v, hv, h1, h2⟩ := arrMin_ok (l := l.map Fl.fin) (by simpa using h)
  obtain ⟨h3, h4⟩ := h2 (by simp)
  obtain ⟨x, hx, rfl⟩ := List.mem_map.1 h3
  exact ⟨x, hx, hv, fun y hy => not_lt.1 (h4 (.fin y) (List.mem_map.2 ⟨y, hy, rfl⟩))⟩

theorem arrMax_fin (l : List ℝ) (h : l ≠ []) :
    ∃ x ∈ l, arrMax (l.map Fl.fin) = .ok (.fin x) ∧ ∀ y ∈ l, y ≤ x := by
  obtain ⟨v, hv, h1, h2⟩ := arrMax_ok (l := l.map Fl.fin) (by simpa using h)
  obtain ⟨h3, h4⟩ := h2 (by simp)
  obtain ⟨x, hx, rfl⟩ := List.mem_map.1 h3
  exact ⟨x, hx, hv, fun y hy => not_lt.1 (h4 (.fin y) (List.mem_map.2 ⟨y, hy, rfl⟩))⟩

theorem extR_ok {N : ℕ} (hN : 0 < N) (A : Fin N × Fin N → ℝ) :
    ∃ a b, extR arrMin A = .ok (.fin (A a)) ∧ extR arrMax A = .ok (.fin (A b)) ∧
      ∀ q, A a ≤ A q ∧ A q ≤ A b := by
  have hne : (Finset.univ : Finset (Fin N × Fin N)).toList.map A ≠ [] := by
    intro h
    have := congrArg List.length h
    simp at this
    omega
  obtain ⟨x, hx, h1, h2⟩ := arrMin_fin _ hne
  obtain ⟨y, hy, h3, h4⟩ := arrMax_fin _ hne
  obtain ⟨a, -, rfl⟩ := List.mem_map.1 hx
  obtain ⟨b, -, rfl⟩ := List.mem_map.1 hy
  rw [List.map_map] at h1 h3
  exact ⟨a, b, h1, h3, fun q => ⟨h2 _ (List.mem_map.2 ⟨q, by simp, rfl⟩),
    h4 _ (List.mem_map.2 ⟨q, by simp, rfl⟩)⟩⟩

theorem axis_range {N : ℕ} (hN : 0 < N) (u : Fin N → ℝ) (hu : Monotone u) :
    minR u = .ok (u ⟨0, hN⟩) ∧ maxR u = .ok (u ⟨N - 1, by omega⟩) := by
  obtain ⟨a, b, h1, h2, h3⟩ := range_spec hN u
  have h4 : Spec.Range u (u ⟨0, hN⟩) (u ⟨N - 1, by omega⟩) :=
    ⟨⟨_, rfl⟩, ⟨_, rfl⟩, fun i => ⟨hu (Fin.le_def.2 (Nat.zero_le _)),
      hu (Fin.le_def.2 (by simp only; omega))⟩⟩
  obtain ⟨rfl, rfl⟩ := range_unique h3 h4
  exact ⟨h1, h2⟩

theorem levels_ok (a b : ℝ) (hab : a < b) : contour (levels10 (.fin a) (.fin b)) = .ok () := by
  unfold contour
  rw [if_neg]
  rintro ⟨i, j, x, y, hij, hx, hy, hle⟩
  simp only [levels10, Fl.sub, Fl.neg, Fl.add, Fl.div, Fl.mul, OfNat.ofNat_ne_zero, if_false,
    Fl.fin.injEq] at hx hy
  rw [← hx, ← hy, hij] at hle
  push_cast at hle
  linarith

theorem levels_flat (a : ℝ) : contour (levels10 (.fin a) (.fin a)) = .error .valueError := by
  unfold contour
  rw [if_pos]
  refine ⟨0, 1, a, a, rfl, ?_, ?_, le_rfl⟩
  · simp [levels10, Fl.sub, Fl.neg, Fl.add, Fl.div, Fl.mul]
  · simp [levels10, Fl.sub, Fl.neg, Fl.add, Fl.div, Fl.mul]

/-- One panel, in full. -/
theorem beamPanel_ok {N : ℕ} (hN : 0 < N) (org : Origin) (c : ℝ) (hc : 0 ≤ c) (lim : ℝ × ℝ × ℝ × ℝ) (dz : ℝ)
    (P : Pattern N) (hu : Monotone P.u) (hv : Monotone P.v) (p : Fin N × Fin N → ℝ) :
    (∃ a b, (∀ q, p a ≤ p q ∧ p q ≤ p b) ∧ p a < p b ∧
      beamPanel org c lim dz (P, p) = .ok ⟨⟨p, P.u ⟨0, hN⟩ * c, P.u ⟨N - 1, by omega⟩ * c,
        P.v ⟨0, hN⟩ * c, P.v ⟨N - 1, by omega⟩ * c, org, .fin (p a), .fin (p b)⟩,
        fun j => P.u j * c, fun i => P.v i * c, levels10 (.fin (p a)) (.fin (p b)), dz,
        some (lim.1 * c, lim.2.1 * c), some (lim.2.2.1 * c, lim.2.2.2 * c)⟩) ∨
    ((∀ q q', p q = p q') ∧ beamPanel org c lim dz (P, p) = .error .valueError) := by
  obtain ⟨a, b, h1, h2, h3⟩ := extR_ok hN p
  obtain ⟨e1, e2⟩ := axis_range hN (fun j => P.u j * c)
    (fun i j hij => mul_le_mul_of_nonneg_right (hu hij) hc)
  obtain ⟨e3, e4⟩ := axis_range hN (fun j => P.v j * c)
    (fun i j hij => mul_le_mul_of_nonneg_right (hv hij) hc)
  rcases lt_or_eq_of_le ((h3 a).2) with hab | hab
  · left
    refine ⟨a, b, h3, hab, ?_⟩
    unfold beamPanel
    simp only [h1, h2, e1, e2, e3, e4, levels_ok _ _ hab, bind, Except.bind, pure, Except.pure]
  · right
    refine ⟨fun q q' => ?_, ?_⟩
    · have := h3 q
      have := h3 q'
      linarith
    · unfold beamPanel
      simp only [h1, h2, hab, levels_flat, bind, Except.bind]

/-- Where `imshow` puts the samples of a uniform axis. -/
theorem pixel_iff {N : ℕ} (hN : 2 ≤ N) (x0 d : ℝ) (hd : 0 < d) (j k : Fin N) :
    (x0 + (k : ℕ) * ((x0 + ((N - 1 : ℕ) : ℝ) * d - x0) / N) ≤ x0 + (j : ℕ) * d ∧
      x0 + (j : ℕ) * d ≤ x0 + ((k : ℕ) + 1) * ((x0 + ((N - 1 : ℕ) : ℝ) * d - x0) / N)) ↔ k = j := by
  have hN0 : (0 : ℝ) < N := by
    have : (2 : ℝ) ≤ N := by exact_mod_cast hN
    linarith
  have e : ∀ t : ℝ, t * ((x0 + ((N - 1 : ℕ) : ℝ) * d - x0) / N) = (t * ((N - 1 : ℕ) : ℝ)) * d / N := by
    intro t; ring
  rw [e, e, add_le_add_iff_left, add_le_add_iff_left, div_le_iff₀ hN0, le_div_iff₀ hN0,
    mul_right_comm ((j : ℕ) : ℝ) d (N : ℝ), mul_le_mul_iff_left₀ hd, mul_le_mul_iff_left₀ hd]
  have hj := j.2
  have hk := k.2
  obtain ⟨M, rfl⟩ : ∃ M, N = M + 1 := ⟨N - 1, by omega⟩
  simp only [Nat.add_sub_cancel]
  constructor
  · rintro ⟨h1, h2⟩
    have g1 : (k : ℕ) * M ≤ (j : ℕ) * (M + 1) := by exact_mod_cast h1
    have g2 : (j : ℕ) * (M + 1) ≤ ((k : ℕ) + 1) * M := by exact_mod_cast h2
    apply Fin.ext
    by_contra hne
    rcases lt_or_gt_of_ne hne with hlt | hgt
    · have : (j : ℕ) * (M + 1) ≤ (j : ℕ) * M := g2.trans (Nat.mul_le_mul_right M hlt)
      have : (j : ℕ) * M + j ≤ (j : ℕ) * M := by linarith
      omega
    · have : ((j : ℕ) + 1) * M ≤ (j : ℕ) * (M + 1) := (Nat.mul_le_mul_right M hgt).trans g1
      have : M ≤ (j : ℕ) := by linarith
      omega
  · rintro rfl
    constructor
    · have : (k : ℕ) * M ≤ (k : ℕ) * (M + 1) := Nat.mul_le_mul_left _ (Nat.le_succ M)
      exact_mod_cast this
    · have : (k : ℕ) * (M + 1) ≤ ((k : ℕ) + 1) * M := by
        have : (k : ℕ) ≤ M := by omega
        linarith
      exact_mod_cast this

/-- The same for rows counted from the top. -/
theorem pixel_rev_iff {N : ℕ} (hN : 2 ≤ N) (y0 d : ℝ) (hd : 0 < d) (i k : Fin N) :
    (y0 + ((N - 1 : ℕ) : ℝ) * d - ((k : ℕ) + 1) * ((y0 + ((N - 1 : ℕ) : ℝ) * d - y0) / N) ≤ y0 + (i : ℕ) * d ∧
      y0 + (i : ℕ) * d ≤ y0 + ((N - 1 : ℕ) : ℝ) * d - (k : ℕ) * ((y0 + ((N - 1 : ℕ) : ℝ) * d - y0) / N)) ↔
      k = i.rev := by
  have hN0 : (N : ℝ) ≠ 0 := by
    have : (2 : ℝ) ≤ N := by exact_mod_cast hN
    linarith
  have hk : (((k.rev : Fin N) : ℕ) : ℝ) = N - ((k : ℕ) + 1) := by
    rw [Fin.val_rev, Nat.cast_sub (by omega)]
    push_cast
    ring
  have key := pixel_iff hN y0 d hd i k.rev
  rw [hk] at key
  have e1 : y0 + ((N : ℝ) - ((k : ℕ) + 1)) * ((y0 + ((N - 1 : ℕ) : ℝ) * d - y0) / N) =
      y0 + ((N - 1 : ℕ) : ℝ) * d - ((k : ℕ) + 1) * ((y0 + ((N - 1 : ℕ) : ℝ) * d - y0) / N) := by
    field_simp
    ring
  have e2 : y0 + ((N : ℝ) - ((k : ℕ) + 1) + 1) * ((y0 + ((N - 1 : ℕ) : ℝ) * d - y0) / N) =
      y0 + ((N - 1 : ℕ) : ℝ) * d - (k : ℕ) * ((y0 + ((N - 1 : ℕ) : ℝ) * d - y0) / N) := by
    field_simp
    ring
  rw [e1, e2] at key
  rw [key, Fin.rev_eq_iff]

/-- The row of an image that is shown at the height of sample `i` of the vertical axis. -/
def Spec.rowAt {N : ℕ} (org : Origin) (i : Fin N) : Fin N :=
  match org with
  | .lower => i
  | .upper => i.rev

theorem covers_iff {N : ℕ} {α : Type} (hN : 2 ≤ N) (im : Img N N α) (u v : Fin N → ℝ) (x0 y0 dx dy : ℝ)
    (hdx : 0 < dx) (hdy : 0 < dy) (hu : ∀ j, u j = x0 + (j : ℕ) * dx) (hv : ∀ i, v i = y0 + (i : ℕ) * dy)
    (h1 : im.left = u ⟨0, by omega⟩) (h2 : im.right = u ⟨N - 1, by omega⟩)
    (h3 : im.bottom = v ⟨0, by omega⟩) (h4 : im.top = v ⟨N - 1, by omega⟩) (q : Fin N × Fin N)
    (i j : Fin N) : Spec.Covers im q (u j) (v i) ↔ q = (Spec.rowAt im.origin i, j) := by
  unfold Spec.Covers
  rw [h1, h2, h3, h4]
  simp only [hu, hv, Nat.cast_zero, zero_mul, add_zero]
  have hp := pixel_iff hN x0 dx hdx j q.2
  cases horg : im.origin with
  | lower =>
    have hr := pixel_iff hN y0 dy hdy i q.1
    simp only [Spec.rowAt]
    rw [← and_assoc, hp, hr]
    constructor
    · rintro ⟨a, b⟩; exact Prod.ext b a
    · rintro rfl; exact ⟨rfl, rfl⟩
  | upper =>
    have hr := pixel_rev_iff hN y0 dy hdy i q.1
    simp only [Spec.rowAt]
    rw [← and_assoc, hp, hr]
    constructor
    · rintro ⟨a, b⟩; exact Prod.ext b a
    · rintro rfl; exact ⟨rfl, rfl⟩

theorem beamMap_inv {N : ℕ} {I K : List ℝ} {wavel : ℝ} {illum : Illum (Fin N × Fin N)}
    {tel : TelGeo (Fin N × Fin N)} {bf dz : ℝ} {x : Pattern N × (Fin N × Fin N → ℝ)}
    (h : beamMap I K wavel illum tel bf dz = .ok x) :
    radiationPattern I K dz wavel illum tel bf = .ok x.1 ∧
      MathFn.norm (fun q => .fin (‖x.1.F q‖ ^ 2)) = .ok x.2 := by
  unfold beamMap at h
  cases h1 : radiationPattern I K dz wavel illum tel bf with
  | error e => simp [h1, bind, Except.bind] at h
  | ok P =>
    cases h2 : MathFn.norm (fun q => Fl.fin (‖P.F q‖ ^ 2)) with
    | error e => simp [h1, h2, bind, Except.bind] at h
    | ok p =>
      simp only [h1, h2, bind, Except.bind, pure, Except.pure] at h
      cases h
      exact ⟨rfl, h2⟩

theorem pattern_mono {I K : List ℝ} {dz wavel : ℝ} {N : ℕ} {illum : Illum (Fin N × Fin N)}
    {tel : TelGeo (Fin N × Fin N)} {bf : ℝ} {P : Pattern N} (hpr : 0 < tel.pr) (hbf : 0 < bf)
    (hw : 0 < wavel) (h : radiationPattern I K dz wavel illum tel bf = .ok P) :
    2 ≤ N ∧ Monotone P.u ∧ Monotone P.v ∧ ∃ x0 d, 0 < d ∧ (∀ j, P.u j = x0 + (j : ℕ) * d) ∧
      ∀ j, P.v j = x0 + (j : ℕ) * d := by
  obtain ⟨h1, h2, -, -⟩ := C14_axes _ _ _ _ _ _ _ _ _ hpr hbf hw h
  obtain ⟨hN, E, -, rfl⟩ := radiationPattern_ok h
  have hN1 : (0 : ℝ) < (N : ℝ) - 1 := by
    have : (2 : ℝ) ≤ N := by exact_mod_cast hN
    linarith
  have hN0 : (0 : ℝ) < N := by linarith
  refine ⟨hN, h2.monotone, h2.monotone, -((N / 2 : ℕ) : ℝ) * (wavel / (N * (2 * (tel.pr * bf) / ((N : ℝ) - 1)))),
    wavel / (N * (2 * (tel.pr * bf) / ((N : ℝ) - 1))), by positivity, fun j => ?_, fun j => ?_⟩
  · simp only
    ring
  · simp only
    ring

/-- What one panel shows: the offset in its title, the power normalised, the pixel at the coordinates of
each sample, the colours and the levels. -/
structure Spec.Shows {N : ℕ} (org : Origin) (c dz : ℝ) (P : Pattern N) (pl : Panel N ℝ) : Prop where
  title : pl.dz = dz
  axes : (∀ j, pl.cu j = P.u j * c) ∧ ∀ i, pl.cv i = P.v i * c
  /-- the pixel over sample `(i, j)`, and no other, has the normalised power of that sample -/
  pixels : ∀ i j q, Spec.Covers pl.img q (P.u j * c) (P.v i * c) ↔ q = (Spec.rowAt org i, j)
  power : ∃ a b, (∀ q, ‖P.F a‖ ^ 2 ≤ ‖P.F q‖ ^ 2 ∧ ‖P.F q‖ ^ 2 ≤ ‖P.F b‖ ^ 2) ∧
    ‖P.F a‖ ^ 2 < ‖P.F b‖ ^ 2 ∧
    ∀ q, pl.img.data q = (‖P.F q‖ ^ 2 - ‖P.F a‖ ^ 2) / (‖P.F b‖ ^ 2 - ‖P.F a‖ ^ 2)
  colours : pl.img.vmin = .fin 0 ∧ pl.img.vmax = .fin 1
  levels : ∀ k : Fin 10, pl.levels k = .fin ((k : ℕ) / 9)

theorem panel_shows {N : ℕ} {I K : List ℝ} {wavel : ℝ} {illum : Illum (Fin N × Fin N)}
    {tel : TelGeo (Fin N × Fin N)} {bf dz : ℝ} {x : Pattern N × (Fin N × Fin N → ℝ)} (hpr : 0 < tel.pr)
    (hbf : 0 < bf) (hw : 0 < wavel) {c : ℝ} (hc : 0 < c)
    (h : beamMap I K wavel illum tel bf dz = .ok x) {org : Origin} {lim : ℝ × ℝ × ℝ × ℝ} {t : ℝ}
    {pl : Panel N ℝ} (hpl : beamPanel org c lim t x = .ok pl) :
    Spec.Shows org c t x.1 pl ∧ pl.xlim = some (lim.1 * c, lim.2.1 * c) ∧
      pl.ylim = some (lim.2.2.1 * c, lim.2.2.2 * c) := by
  obtain ⟨P, p⟩ := x
  obtain ⟨h1, h2⟩ := beamMap_inv h
  simp only at h1 h2
  obtain ⟨hN, hu, hv, x0, d, hd, hux, hvx⟩ := pattern_mono hpr hbf hw h1
  have hN0 : 0 < N := by omega
  have : Nonempty (Fin N × Fin N) := ⟨(⟨0, hN0⟩, ⟨0, hN0⟩)⟩
  obtain ⟨a', b', hab', hn⟩ := norm_fin (fun q : Fin N × Fin N => ‖P.F q‖ ^ 2)
  rw [h2] at hn
  cases hn
  rcases beamPanel_ok hN0 org c hc.le lim t P hu hv
    (fun q => (‖P.F q‖ ^ 2 - ‖P.F a'‖ ^ 2) / (‖P.F b'‖ ^ 2 - ‖P.F a'‖ ^ 2)) with
    ⟨a, b, hle, hlt, he⟩ | ⟨-, he⟩
  · rw [he] at hpl
    cases hpl
    have hpos : ‖P.F a'‖ ^ 2 < ‖P.F b'‖ ^ 2 := by
      rcases lt_or_eq_of_le (hab' a').2 with h' | h'
      · exact h'
      · rw [h', sub_self, div_zero, div_zero] at hlt
        exact absurd hlt (lt_irrefl _)
    have hne : ‖P.F b'‖ ^ 2 - ‖P.F a'‖ ^ 2 ≠ 0 := by linarith
    have hv0 : (‖P.F a‖ ^ 2 - ‖P.F a'‖ ^ 2) / (‖P.F b'‖ ^ 2 - ‖P.F a'‖ ^ 2) = 0 := by
      have e1 := (hle a').1
      rw [sub_self, zero_div] at e1
      exact le_antisymm e1 (div_nonneg (by linarith [(hab' a).1]) (by linarith))
    have hv1 : (‖P.F b‖ ^ 2 - ‖P.F a'‖ ^ 2) / (‖P.F b'‖ ^ 2 - ‖P.F a'‖ ^ 2) = 1 := by
      have e1 := (hle b').2
      rw [div_self hne] at e1
      refine le_antisymm ?_ e1
      rw [div_le_one (by linarith)]
      linarith [(hab' b).2]
    refine ⟨⟨rfl, ⟨fun _ => rfl, fun _ => rfl⟩, fun i j q => ?_, ⟨a', b', hab', hpos, fun _ => rfl⟩,
      ⟨congrArg Fl.fin hv0, congrArg Fl.fin hv1⟩, fun k => ?_⟩, rfl, rfl⟩
    · exact covers_iff hN _ (fun j => P.u j * c) (fun j => P.v j * c) (x0 * c) (x0 * c) (d * c) (d * c)
        (by positivity) (by positivity) (fun j => by simp only [hux]; ring)
        (fun j => by simp only [hvx]; ring) rfl rfl rfl rfl q i j
    · simp only [hv0, hv1]
      simp [levels10, Fl.sub, Fl.neg, Fl.add, Fl.div, Fl.mul]
      ring
  · rw [he] at hpl
    cases hpl

theorem plotBeam_inv {N : ℕ} {org : Origin} {I K : List ℝ} {d0 d1 d2 : ℝ} {rest : List ℝ} {wavel : ℝ}
    {illum : Illum (Fin N × Fin N)} {tel : TelGeo (Fin N × Fin N)} {bf : ℝ}
    {plim : Option (ℝ × ℝ × ℝ × ℝ)} {c : ℝ} {figs : List (Panel N ℝ)}
    (h : plotBeam org I K (d0 :: d1 :: d2 :: rest) wavel illum tel bf plim c = .ok figs) :
    ∃ m0 m1 m2 lim p0 p1 p2, beamMap I K wavel illum tel bf d0 = .ok m0 ∧
      beamMap I K wavel illum tel bf d1 = .ok m1 ∧ beamMap I K wavel illum tel bf d2 = .ok m2 ∧
      (plim = some lim ∨ plim = none ∧ autoLimits wavel tel.pr m1.1 m1.2 = .ok lim) ∧
      beamPanel org c lim d0 m0 = .ok p0 ∧ beamPanel org c lim d1 m1 = .ok p1 ∧
      beamPanel org c lim d2 m2 = .ok p2 ∧ figs = [p0, p1, p2] := by
  unfold plotBeam at h
  cases hm : (d0 :: d1 :: d2 :: rest).mapM (beamMap I K wavel illum tel bf) with
  | error e => simp [hm, bind, Except.bind] at h
  | ok maps =>
    have hf := mapM_inv _ _ _ hm
    rcases hf with _ | ⟨g0, _ | ⟨g1, _ | ⟨g2, gr⟩⟩⟩
    rename_i m0 m1 m2 mr
    have e1 : (List.range 3).mapM (pyIdx (d0 :: d1 :: d2 :: rest)) = .ok [d0, d1, d2] := rfl
    have e2 : (List.range 3).mapM (pyIdx (m0 :: m1 :: m2 :: mr)) = .ok [m0, m1, m2] := rfl
    have e3 : pyIdx (m0 :: m1 :: m2 :: mr) 1 = .ok m1 := rfl
    rw [hm] at h
    have tail : ∀ lim, ([d0, d1, d2].zip [m0, m1, m2]).mapM (fun x => beamPanel org c lim x.1 x.2) =
        .ok figs → ∃ p0 p1 p2, beamPanel org c lim d0 m0 = .ok p0 ∧ beamPanel org c lim d1 m1 = .ok p1 ∧
        beamPanel org c lim d2 m2 = .ok p2 ∧ figs = [p0, p1, p2] := by
      intro lim hl
      have := mapM_inv _ _ _ hl
      rcases this with _ | ⟨q0, _ | ⟨q1, _ | ⟨q2, _ | _⟩⟩⟩
      exact ⟨_, _, _, q0, q1, q2, rfl⟩
    cases plim with
    | some lim =>
      simp only [bind, Except.bind] at h
      rw [e1] at h
      simp only at h
      rw [e2] at h
      obtain ⟨p0, p1, p2, t0, t1, t2, rfl⟩ := tail lim h
      exact ⟨m0, m1, m2, lim, p0, p1, p2, g0, g1, g2, .inl rfl, t0, t1, t2, rfl⟩
    | none =>
      simp only [bind, Except.bind, e3] at h
      cases ha : autoLimits wavel tel.pr m1.1 m1.2 with
      | error e => simp [ha] at h
      | ok lim =>
        rw [ha] at h
        simp only at h
        rw [e1] at h
        simp only at h
        rw [e2] at h
        obtain ⟨p0, p1, p2, t0, t1, t2, rfl⟩ := tail lim h
        exact ⟨m0, m1, m2, lim, p0, p1, p2, g0, g1, g2, .inr ⟨rfl, ha⟩, t0, t1, t2, rfl⟩

/-! ## C72 -/

/-- **C72.**  The three panels of `plot_beam` are the first three offsets in the given order; each shows
the normalised power pattern of its own offset at the coordinates of its samples. -/
theorem C72_panels {N : ℕ} (org : Origin) (I K : List ℝ) (d0 d1 d2 : ℝ) (rest : List ℝ) (wavel : ℝ)
    (illum : Illum (Fin N × Fin N)) (tel : TelGeo (Fin N × Fin N)) (bf : ℝ)
    (plim : Option (ℝ × ℝ × ℝ × ℝ)) (c : ℝ) (figs : List (Panel N ℝ)) (hpr : 0 < tel.pr) (hbf : 0 < bf)
    (hw : 0 < wavel) (hc : 0 < c)
    (h : plotBeam org I K (d0 :: d1 :: d2 :: rest) wavel illum tel bf plim c = .ok figs) :
    ∃ p0 p1 p2 P0 P1 P2, figs = [p0, p1, p2] ∧
      radiationPattern I K d0 wavel illum tel bf = .ok P0 ∧ Spec.Shows org c d0 P0 p0 ∧
      radiationPattern I K d1 wavel illum tel bf = .ok P1 ∧ Spec.Shows org c d1 P1 p1 ∧
      radiationPattern I K d2 wavel illum tel bf = .ok P2 ∧ Spec.Shows org c d2 P2 p2 := by
  obtain ⟨m0, m1, m2, lim, p0, p1, p2, g0, g1, g2, -, t0, t1, t2, rfl⟩ := plotBeam_inv h
  exact ⟨p0, p1, p2, m0.1, m1.1, m2.1, rfl, (beamMap_inv g0).1, (panel_shows hpr hbf hw hc g0 t0).1,
    (beamMap_inv g1).1, (panel_shows hpr hbf hw hc g1 t1).1,
    (beamMap_inv g2).1, (panel_shows hpr hbf hw hc g2 t2).1⟩

theorem firstMax_spec {N : ℕ} (hN : 0 < N) (a a' b : Fin N × Fin N → ℝ) :
    ∃ q, (∀ q', b q' ≤ b q) ∧ firstMax a b = .ok (a q) ∧ firstMax a' b = .ok (a' q) := by
  classical
  set l := (List.finRange N).flatMap fun i => (List.finRange N).map fun j => (i, j) with hl
  have hmem : ∀ q : Fin N × Fin N, q ∈ l := by
    rintro ⟨i, j⟩
    simp [hl]
  have hne : l.map b ≠ [] := by
    intro h0
    have h1 := List.map_eq_nil_iff.1 h0
    have := hmem (⟨0, hN⟩, ⟨0, hN⟩)
    rw [h1] at this
    cases this
  obtain ⟨x, hx, h1, h2⟩ := arrMax_fin _ hne
  obtain ⟨q0, -, rfl⟩ := List.mem_map.1 hx
  rw [List.map_map] at h1
  have hf : l.filter (fun q => decide (Fl.fin (b q) = Fl.fin (b q0))) ≠ [] := by
    intro h0
    have : q0 ∈ l.filter (fun q => decide (Fl.fin (b q) = Fl.fin (b q0))) :=
      List.mem_filter.2 ⟨hmem q0, by simp⟩
    rw [h0] at this
    cases this
  obtain ⟨q, t, hq⟩ := List.exists_cons_of_ne_nil hf
  have hqm : q ∈ l.filter (fun q => decide (Fl.fin (b q) = Fl.fin (b q0))) := by
    rw [hq]; exact List.mem_cons_self
  have hbq : b q = b q0 := by
    have := (List.mem_filter.1 hqm).2
    simpa using this
  refine ⟨q, fun q' => ?_, ?_, ?_⟩
  · rw [hbq]
    exact h2 _ (List.mem_map.2 ⟨q', hmem q', rfl⟩)
  all_goals
    unfold firstMax
    dsimp only
    rw [← hl]
    have h1' : arrMax (List.map (fun q => Fl.fin (b q)) l) = .ok (.fin (b q0)) := h1
    rw [h1']
    simp only [bind, Except.bind]
    rw [hq]
    rfl

/-- **C72.**  Without given limits the axes of all panels are centred on a maximum of the second (the
in-focus) map, with a half width of eight times `1.22 λ / (2 pr)`; the limits have the same unit as
the axes. -/
theorem C72_limits {N : ℕ} (org : Origin) (I K : List ℝ) (d0 d1 d2 : ℝ) (rest : List ℝ) (wavel : ℝ)
    (illum : Illum (Fin N × Fin N)) (tel : TelGeo (Fin N × Fin N)) (bf : ℝ) (c : ℝ)
    (figs : List (Panel N ℝ)) (hpr : 0 < tel.pr) (hbf : 0 < bf) (hw : 0 < wavel) (hc : 0 < c)
    (h : plotBeam org I K (d0 :: d1 :: d2 :: rest) wavel illum tel bf none c = .ok figs) :
    ∃ (P1 : Pattern N) (i j : Fin N), radiationPattern I K d1 wavel illum tel bf = .ok P1 ∧
      (∀ q, ‖P1.F q‖ ≤ ‖P1.F (i, j)‖) ∧
      ∀ pl ∈ figs,
        pl.xlim = some ((P1.u j - 8 * (1.22 * wavel / (2 * tel.pr))) * c,
          (P1.u j + 8 * (1.22 * wavel / (2 * tel.pr))) * c) ∧
        pl.ylim = some ((P1.v i - 8 * (1.22 * wavel / (2 * tel.pr))) * c,
          (P1.v i + 8 * (1.22 * wavel / (2 * tel.pr))) * c) := by
  obtain ⟨m0, m1, m2, lim, p0, p1, p2, g0, g1, g2, hl, t0, t1, t2, rfl⟩ := plotBeam_inv h
  rcases hl with hl | ⟨-, hl⟩
  · cases hl
  obtain ⟨hP, hn⟩ := beamMap_inv g1
  obtain ⟨s1, -, -⟩ := panel_shows hpr hbf hw hc g1 t1
  obtain ⟨hN, -⟩ := pattern_mono hpr hbf hw hP
  have hN0 : 0 < N := by omega
  obtain ⟨q, hq, f1, f2⟩ := firstMax_spec hN0 (meshX m1.1.u m1.1.v) (meshY m1.1.u m1.1.v) m1.2
  unfold autoLimits at hl
  simp only [f1, f2, bind, Except.bind, pure, Except.pure] at hl
  cases hl
  refine ⟨m1.1, q.1, q.2, hP, fun q' => ?_, fun pl hpl => ?_⟩
  · -- the normalised power grows with the modulus
    obtain ⟨a, b, -, hlt, hd⟩ := s1.power
    have : m1.2 = p1.img.data := by
      unfold beamPanel at t1
      cases h1 : extR arrMin m1.2 with
      | error e => simp [h1, bind, Except.bind] at t1
      | ok vmin =>
        cases h2 : extR arrMax m1.2 with
        | error e => simp [h1, h2, bind, Except.bind] at t1
        | ok vmax =>
          obtain ⟨-, hu, hv, -⟩ := pattern_mono hpr hbf hw hP
          obtain ⟨e1, e2⟩ := axis_range hN0 (fun j => m1.1.u j * c)
            (fun i j hij => mul_le_mul_of_nonneg_right (hu hij) hc.le)
          obtain ⟨e3, e4⟩ := axis_range hN0 (fun j => m1.1.v j * c)
            (fun i j hij => mul_le_mul_of_nonneg_right (hv hij) hc.le)
          cases h3 : contour (levels10 vmin vmax) with
          | error e => simp [h1, h2, h3, bind, Except.bind] at t1
          | ok _ =>
            simp only [h1, h2, h3, e1, e2, e3, e4, bind, Except.bind, pure, Except.pure] at t1
            cases t1
            rfl
    have h' := hq q'
    rw [this, hd, hd, div_le_div_iff_of_pos_right (by linarith)] at h'
    have h'' : ‖m1.1.F q'‖ ^ 2 ≤ ‖m1.1.F q‖ ^ 2 := by linarith
    exact (sq_le_sq₀ (norm_nonneg _) (norm_nonneg _)).1 h''
  · have e : ∀ x, -(1.22 * wavel / (2 * tel.pr) * 8) + x = x - 8 * (1.22 * wavel / (2 * tel.pr)) ∧
        1.22 * wavel / (2 * tel.pr) * 8 + x = x + 8 * (1.22 * wavel / (2 * tel.pr)) := by
      intro x; constructor <;> ring
    rcases List.mem_cons.1 hpl with rfl | hpl
    · obtain ⟨-, a, b⟩ := panel_shows hpr hbf hw hc g0 t0
      rw [a, b]
      simp only [meshX, meshY, (e _).1, (e _).2, and_self]
    rcases List.mem_cons.1 hpl with rfl | hpl
    · obtain ⟨-, a, b⟩ := panel_shows hpr hbf hw hc g1 t1
      rw [a, b]
      simp only [meshX, meshY, (e _).1, (e _).2, and_self]
    rcases List.mem_cons.1 hpl with rfl | hpl
    · obtain ⟨-, a, b⟩ := panel_shows hpr hbf hw hc g2 t2
      rw [a, b]
      simp only [meshX, meshY, (e _).1, (e _).2, and_self]
    · cases hpl

theorem beamMap_of {N : ℕ} {I K : List ℝ} {wavel : ℝ} {illum : Illum (Fin N × Fin N)}
    {tel : TelGeo (Fin N × Fin N)} {bf dz : ℝ} {P : Pattern N}
    (h : radiationPattern I K dz wavel illum tel bf = .ok P) :
    ∃ p, beamMap I K wavel illum tel bf dz = .ok (P, p) := by
  obtain ⟨hN, -⟩ := radiationPattern_ok h
  have : Nonempty (Fin N × Fin N) := ⟨(⟨0, by omega⟩, ⟨0, by omega⟩)⟩
  obtain ⟨a, b, -, hn⟩ := norm_fin (fun q : Fin N × Fin N => ‖P.F q‖ ^ 2)
  unfold beamMap
  simp only [h, hn, bind, Except.bind, pure, Except.pure]
  exact ⟨_, rfl⟩

theorem panel_ok_iff {N : ℕ} {I K : List ℝ} {wavel : ℝ} {illum : Illum (Fin N × Fin N)}
    {tel : TelGeo (Fin N × Fin N)} {bf dz : ℝ} {x : Pattern N × (Fin N × Fin N → ℝ)} (hpr : 0 < tel.pr)
    (hbf : 0 < bf) (hw : 0 < wavel) {c : ℝ} (hc : 0 < c)
    (h : beamMap I K wavel illum tel bf dz = .ok x) (org : Origin) (lim : ℝ × ℝ × ℝ × ℝ) (t : ℝ) :
    ((∃ q q', ‖x.1.F q‖ ≠ ‖x.1.F q'‖) → ∃ pl, beamPanel org c lim t x = .ok pl) ∧
    ((∀ q q', ‖x.1.F q‖ = ‖x.1.F q'‖) → beamPanel org c lim t x = .error .valueError) := by
  obtain ⟨P, p⟩ := x
  obtain ⟨h1, h2⟩ := beamMap_inv h
  simp only at h1 h2
  obtain ⟨hN, hu, hv, -⟩ := pattern_mono hpr hbf hw h1
  have hN0 : 0 < N := by omega
  have : Nonempty (Fin N × Fin N) := ⟨(⟨0, hN0⟩, ⟨0, hN0⟩)⟩
  obtain ⟨a', b', hab', hn⟩ := norm_fin (fun q : Fin N × Fin N => ‖P.F q‖ ^ 2)
  rw [h2] at hn
  cases hn
  rcases beamPanel_ok hN0 org c hc.le lim t P hu hv
    (fun q => (‖P.F q‖ ^ 2 - ‖P.F a'‖ ^ 2) / (‖P.F b'‖ ^ 2 - ‖P.F a'‖ ^ 2)) with
    ⟨a, b, hle, hlt, he⟩ | ⟨hflat, he⟩
  · refine ⟨fun _ => ⟨_, he⟩, fun hall => ?_⟩
    simp only at hall
    simp only [hall a a', hall b a', hall b' a', sub_self, div_zero, lt_irrefl] at hlt
  · refine ⟨?_, fun _ => he⟩
    rintro ⟨q, q', hne⟩
    exfalso
    rcases lt_or_eq_of_le (hab' a').2 with h' | h'
    · have e1 := hflat a' b'
      rw [sub_self, zero_div, div_self (by linarith)] at e1
      norm_num at e1
    · apply hne
      have g1 := hab' q
      have g2 := hab' q'
      have : ‖P.F q‖ ^ 2 = ‖P.F q'‖ ^ 2 := by
        linarith [g1.1, g1.2, g2.1, g2.2]
      exact (sq_eq_sq₀ (norm_nonneg _) (norm_nonneg _)).1 this

theorem limits_ok {N : ℕ} (hN : 0 < N) (wavel pr : ℝ) (P : Pattern N) (p : Fin N × Fin N → ℝ) :
    ∃ lim, autoLimits wavel pr P p = .ok lim := by
  obtain ⟨q, -, f1, f2⟩ := firstMax_spec hN (meshX P.u P.v) (meshY P.u P.v) p
  unfold autoLimits
  simp only [f1, f2, bind, Except.bind, pure, Except.pure]
  exact ⟨_, rfl⟩

theorem plotBeam_eq {N : ℕ} (org : Origin) {I K : List ℝ} {d0 d1 d2 : ℝ} {rest : List ℝ} {wavel : ℝ}
    {illum : Illum (Fin N × Fin N)} {tel : TelGeo (Fin N × Fin N)} {bf : ℝ}
    (plim : Option (ℝ × ℝ × ℝ × ℝ)) (c : ℝ) (hN : 0 < N)
    {m0 m1 m2 : Pattern N × (Fin N × Fin N → ℝ)} (g0 : beamMap I K wavel illum tel bf d0 = .ok m0)
    (g1 : beamMap I K wavel illum tel bf d1 = .ok m1) (g2 : beamMap I K wavel illum tel bf d2 = .ok m2)
    (gr : ∀ d ∈ rest, ∃ m, beamMap I K wavel illum tel bf d = .ok m) :
    ∃ lim, plotBeam org I K (d0 :: d1 :: d2 :: rest) wavel illum tel bf plim c =
      (do
        let p0 ← beamPanel org c lim d0 m0
        let p1 ← beamPanel org c lim d1 m1
        let p2 ← beamPanel org c lim d2 m2
        return [p0, p1, p2]) := by
  have hr : ∃ ms, rest.mapM (beamMap I K wavel illum tel bf) = .ok ms := by
    induction rest with
    | nil => exact ⟨_, rfl⟩
    | cons d t ih =>
      obtain ⟨m, hm⟩ := gr d List.mem_cons_self
      obtain ⟨ms, hms⟩ := ih fun d hd => gr d (List.mem_cons_of_mem _ hd)
      exact ⟨m :: ms, by rw [List.mapM_cons, hm, hms]; rfl⟩
  obtain ⟨ms, hms⟩ := hr
  have hmaps : (d0 :: d1 :: d2 :: rest).mapM (beamMap I K wavel illum tel bf) =
      .ok (m0 :: m1 :: m2 :: ms) := by
    simp only [List.mapM_cons, g0, g1, g2, hms]; rfl
  have e1 : (List.range 3).mapM (pyIdx (d0 :: d1 :: d2 :: rest)) = .ok [d0, d1, d2] := rfl
  have e2 : (List.range 3).mapM (pyIdx (m0 :: m1 :: m2 :: ms)) = .ok [m0, m1, m2] := rfl
  have e3 : pyIdx (m0 :: m1 :: m2 :: ms) 1 = .ok m1 := rfl
  have tail : ∀ lim, ([d0, d1, d2].zip [m0, m1, m2]).mapM (fun x => beamPanel org c lim x.1 x.2) =
      (do
        let p0 ← beamPanel org c lim d0 m0
        let p1 ← beamPanel org c lim d1 m1
        let p2 ← beamPanel org c lim d2 m2
        return [p0, p1, p2]) := by
    intro lim
    simp only [List.zip_cons_cons, List.zip_nil_left, List.mapM_cons, List.mapM_nil, bind_assoc,
      pure_bind]
  obtain ⟨lim, hlim⟩ := limits_ok hN wavel tel.pr m1.1 m1.2
  unfold plotBeam
  rw [hmaps]
  cases plim with
  | some l =>
    refine ⟨l, ?_⟩
    rw [← tail l]
    simp only [bind, Except.bind]
    rw [e1]
    simp only
    rw [e2]
  | none =>
    refine ⟨lim, ?_⟩
    rw [← tail lim]
    simp only [bind, Except.bind, e3, hlim]
    rw [e1]
    simp only
    rw [e2]

/-- **C72.**  `plot_beam` of maps that can be computed makes its figure when none of the three plotted
maps has the same power everywhere; with one such map it raises `ValueError` (matplotlib's contour
levels). -/
theorem C72_total {N : ℕ} (org : Origin) (I K : List ℝ) (d0 d1 d2 : ℝ) (rest : List ℝ) (wavel : ℝ)
    (illum : Illum (Fin N × Fin N)) (tel : TelGeo (Fin N × Fin N)) (bf : ℝ)
    (plim : Option (ℝ × ℝ × ℝ × ℝ)) (c : ℝ) (P0 P1 P2 : Pattern N) (hpr : 0 < tel.pr) (hbf : 0 < bf)
    (hw : 0 < wavel) (hc : 0 < c)
    (h0 : radiationPattern I K d0 wavel illum tel bf = .ok P0)
    (h1 : radiationPattern I K d1 wavel illum tel bf = .ok P1)
    (h2 : radiationPattern I K d2 wavel illum tel bf = .ok P2)
    (hr : ∀ d ∈ rest, ∃ P, radiationPattern I K d wavel illum tel bf = .ok P) :
    ((∀ P ∈ [P0, P1, P2], ∃ q q', ‖P.F q‖ ≠ ‖P.F q'‖) →
      ∃ figs, plotBeam org I K (d0 :: d1 :: d2 :: rest) wavel illum tel bf plim c = .ok figs) ∧
    ((∃ P ∈ [P0, P1, P2], ∀ q q', ‖P.F q‖ = ‖P.F q'‖) →
      plotBeam org I K (d0 :: d1 :: d2 :: rest) wavel illum tel bf plim c = .error .valueError) := by
  obtain ⟨q0, g0⟩ := beamMap_of h0
  obtain ⟨q1, g1⟩ := beamMap_of h1
  obtain ⟨q2, g2⟩ := beamMap_of h2
  obtain ⟨hN, -⟩ := radiationPattern_ok h0
  obtain ⟨lim, he⟩ := plotBeam_eq (rest := rest) org plim c (by omega) g0 g1 g2 fun d hd => by
    obtain ⟨P, hP⟩ := hr d hd
    obtain ⟨p, hp⟩ := beamMap_of hP
    exact ⟨_, hp⟩
  have k0 := panel_ok_iff hpr hbf hw hc g0 org lim d0
  have k1 := panel_ok_iff hpr hbf hw hc g1 org lim d1
  have k2 := panel_ok_iff hpr hbf hw hc g2 org lim d2
  rw [he]
  constructor
  · intro hP
    obtain ⟨p0, e0⟩ := k0.1 (hP P0 (by simp))
    obtain ⟨p1, e1⟩ := k1.1 (hP P1 (by simp))
    obtain ⟨p2, e2⟩ := k2.1 (hP P2 (by simp))
    simp only [e0, e1, e2, bind, Except.bind, pure, Except.pure]
    exact ⟨_, rfl⟩
  · rintro ⟨P, hP, hflat⟩
    have dich : ∀ {x : Pattern N × (Fin N × Fin N → ℝ)} {d : ℝ},
        (((∃ q q', ‖x.1.F q‖ ≠ ‖x.1.F q'‖) → ∃ pl, beamPanel org c lim d x = .ok pl) ∧
        ((∀ q q', ‖x.1.F q‖ = ‖x.1.F q'‖) → beamPanel org c lim d x = .error .valueError)) →
        (∃ pl, beamPanel org c lim d x = .ok pl) ∨ beamPanel org c lim d x = .error .valueError := by
      intro x d hx
      by_cases hf : ∀ q q', ‖x.1.F q‖ = ‖x.1.F q'‖
      · exact .inr (hx.2 hf)
      · push Not at hf
        exact .inl (hx.1 hf)
    rcases List.mem_cons.1 hP with rfl | hP
    · simp only [k0.2 hflat, bind, Except.bind]
    rcases List.mem_cons.1 hP with rfl | hP
    · rcases dich k0 with ⟨p0, e0⟩ | e0
      · simp only [e0, k1.2 hflat, bind, Except.bind]
      · simp only [e0, bind, Except.bind]
    rcases List.mem_cons.1 hP with rfl | hP
    · rcases dich k0 with ⟨p0, e0⟩ | e0
      · rcases dich k1 with ⟨p1, e1⟩ | e1
        · simp only [e0, e1, k2.2 hflat, bind, Except.bind]
        · simp only [e0, e1, bind, Except.bind]
      · simp only [e0, bind, Except.bind]
    · cases hP

theorem mapM_length {α β : Type} (f : α → Py β) (l : List α) (r : List β) (h : l.mapM f = .ok r) :
    r.length = l.length := (mapM_inv _ _ _ h).length_eq.symm

/-- **C72.**  Fewer than three offsets: no figure. -/
theorem C72_short {N : ℕ} (org : Origin) (I K : List ℝ) (dz : List ℝ) (wavel : ℝ)
    (illum : Illum (Fin N × Fin N)) (tel : TelGeo (Fin N × Fin N)) (bf : ℝ)
    (plim : Option (ℝ × ℝ × ℝ × ℝ)) (c : ℝ) (hdz : dz.length < 3) :
    ∃ e, plotBeam org I K dz wavel illum tel bf plim c = .error e := by
  cases h : plotBeam org I K dz wavel illum tel bf plim c with
  | error e => exact ⟨e, rfl⟩
  | ok figs =>
    exfalso
    have hds : ∃ e, (List.range 3).mapM (pyIdx dz) = .error e := by
      cases hk : (List.range 3).mapM (pyIdx dz) with
      | error e => exact ⟨e, rfl⟩
      | ok r =>
        exfalso
        have := mapM_inv _ _ _ hk
        rw [show List.range 3 = [0, 1, 2] from rfl] at this
        rcases this with _ | ⟨q0, _ | ⟨q1, _ | ⟨q2, _ | _⟩⟩⟩
        unfold pyIdx at q2
        rw [List.getElem?_eq_none (by omega)] at q2
        cases q2
    obtain ⟨e, hds⟩ := hds
    unfold plotBeam at h
    cases hm : dz.mapM (beamMap I K wavel illum tel bf) with
    | error e => simp [hm, bind, Except.bind] at h
    | ok maps =>
      rw [hm] at h
      simp only [bind, Except.bind] at h
      cases plim with
      | some l =>
        simp only at h
        rw [hds] at h
        cases h
      | none =>
        cases h1 : pyIdx maps 1 with
        | error e => simp [h1] at h
        | ok m1 =>
          cases h2 : autoLimits wavel tel.pr m1.1 m1.2 with
          | error e => simp [h1, h2] at h
          | ok lim =>
            simp only [h1, h2] at h
            rw [hds] at h
            cases h

/-! ## Observed maps -/

/-- What is asked of the interpolation: a grid node on an observed position has the observed value
(positions observed once). -/
def Spec.Interpolates {M N : ℕ} (g : GridData M N) : Prop :=
  ∀ u v b un vn r, Function.Injective (fun k => (u k, v k)) → g u v b un vn = .ok r → ∀ (k : Fin M) (i j : Fin N), u k = un j → v k = vn i →
    r (i, j) = some (b k)

theorem linspace_step {N : ℕ} (a b : ℝ) (j : Fin N) :
    linspace a b N j = a + (j : ℕ) * ((b - a) / ((N : ℝ) - 1)) := rfl

theorem linspace_mono {N : ℕ} (hN : 2 ≤ N) (a b : ℝ) (h : a ≤ b) : Monotone (linspace a b N) := by
  intro i j hij
  have hN1 : (0 : ℝ) ≤ (N : ℝ) - 1 := by
    have : (2 : ℝ) ≤ N := by exact_mod_cast hN
    linarith
  have : ((i : ℕ) : ℝ) ≤ (j : ℕ) := by exact_mod_cast hij
  rw [linspace_step, linspace_step]
  have h2 : 0 ≤ (b - a) / ((N : ℝ) - 1) := div_nonneg (by linarith) hN1
  nlinarith

theorem minR_scale {M : ℕ} (u : Fin M → ℝ) (c : ℝ) (hc : 0 < c) (a b : ℝ) (h : Spec.Range u a b) :
    minR (fun k => u k * c) = .ok (a * c) ∧ maxR (fun k => u k * c) = .ok (b * c) := by
  obtain ⟨⟨i, rfl⟩, ⟨j, rfl⟩, h3⟩ := h
  obtain ⟨a', b', h1, h2, h4⟩ := range_spec (n := M) (by have := i.2; omega) (fun k => u k * c)
  have h5 : Spec.Range (fun k => u k * c) (u i * c) (u j * c) :=
    ⟨⟨i, rfl⟩, ⟨j, rfl⟩, fun k => ⟨mul_le_mul_of_nonneg_right (h3 k).1 hc.le,
      mul_le_mul_of_nonneg_right (h3 k).2 hc.le⟩⟩
  obtain ⟨rfl, rfl⟩ := range_unique h4 h5
  exact ⟨h1, h2⟩

/-- What a panel of observed data shows: `b` at the positions `u`, `v`, which range over `[ua, ub]` and
`[va, vb]`, on an even grid over these ranges in the unit `c`. -/
def Spec.ShowsData {M N : ℕ} (org : Origin) (c dz : ℝ) (u v beam : Fin M → ℝ) (ua ub va vb : ℝ)
    (pl : Panel N (Option ℝ)) : Prop :=
    pl.dz = dz ∧
    (∀ j, pl.cu j = (ua + (j : ℕ) * ((ub - ua) / ((N : ℝ) - 1))) * c) ∧
    (∀ i, pl.cv i = (va + (i : ℕ) * ((vb - va) / ((N : ℝ) - 1))) * c) ∧
    (∀ i j q, Spec.Covers pl.img q (pl.cu j) (pl.cv i) ↔ q = (Spec.rowAt org i, j)) ∧
    (∀ i j k, u k * c = pl.cu j → v k * c = pl.cv i → pl.img.data (i, j) = some (beam k)) ∧
    ((∃ q, pl.img.data q = none) → pl.img.vmin = .nan ∧ pl.img.vmax = .nan) ∧
    ((∀ q, pl.img.data q ≠ none) → ∃ q q', pl.img.vmin = .fin ((pl.img.data q).getD 0) ∧
      pl.img.vmax = .fin ((pl.img.data q').getD 0) ∧
      ∀ q'', (pl.img.data q).getD 0 ≤ (pl.img.data q'').getD 0 ∧
        (pl.img.data q'').getD 0 ≤ (pl.img.data q').getD 0)

theorem dataPanel_shows {M N : ℕ} (hN : 2 ≤ N) (org : Origin) (g : GridData M N) (hg : Spec.Interpolates g)
    (c : ℝ) (hc : 0 < c) (dz : ℝ) (u v beam : Fin M → ℝ) (ua ub va vb : ℝ) (hu : Spec.Range u ua ub)
    (hv : Spec.Range v va vb) (hua : ua < ub) (hva : va < vb)
    (huv : Function.Injective fun k => (u k, v k)) (pl : Panel N (Option ℝ))
    (h : dataPanel org g c dz u v beam = .ok pl) :
    Spec.ShowsData org c dz u v beam ua ub va vb pl := by
  have hN0 : 0 < N := by omega
  have hN1 : (0 : ℝ) < (N : ℝ) - 1 := by
    have : (2 : ℝ) ≤ N := by exact_mod_cast hN
    linarith
  obtain ⟨a1, a2⟩ := minR_scale u c hc ua ub hu
  obtain ⟨a3, a4⟩ := minR_scale v c hc va vb hv
  obtain ⟨b1, b2⟩ := axis_range hN0 (linspace (ua * c) (ub * c) N)
    (linspace_mono hN _ _ (mul_le_mul_of_nonneg_right hua.le hc.le))
  obtain ⟨b3, b4⟩ := axis_range hN0 (linspace (va * c) (vb * c) N)
    (linspace_mono hN _ _ (mul_le_mul_of_nonneg_right hva.le hc.le))
  unfold dataPanel at h
  simp only [a1, a2, a3, a4, b1, b2, b3, b4, bind, Except.bind, pure, Except.pure] at h
  cases h1 : g (fun k => u k * c) (fun k => v k * c) beam (linspace (ua * c) (ub * c) N)
    (linspace (va * c) (vb * c) N) with
  | error e => simp [h1] at h
  | ok r =>
    simp only [h1] at h
    have hne : (Finset.univ : Finset (Fin N × Fin N)).toList.map
        (fun q => match r q with | some r => Fl.fin r | none => Fl.nan) ≠ [] := by
      intro h
      have h1 := congrArg List.length h
      simp at h1
      omega
    obtain ⟨vmin, hmin, m1, m2⟩ := arrMin_ok hne
    obtain ⟨vmax, hmax, x1, x2⟩ := arrMax_ok hne
    have hmin' : ext arrMin r = .ok vmin := hmin
    have hmax' : ext arrMax r = .ok vmax := hmax
    simp only [hmin', hmax'] at h
    cases h2 : contour (levels10 vmin vmax) with
    | error e => simp [h2] at h
    | ok _ =>
      simp only [h2] at h
      cases h
      refine ⟨rfl, fun j => ?_, fun i => ?_, fun i j q => ?_, fun i j k hk1 hk2 => ?_, ?_, ?_⟩
      · simp only [linspace_step]; ring
      · simp only [linspace_step]; ring
      · exact covers_iff hN _ (linspace (ua * c) (ub * c) N) (linspace (va * c) (vb * c) N) (ua * c)
          (va * c) ((ub * c - ua * c) / ((N : ℝ) - 1)) ((vb * c - va * c) / ((N : ℝ) - 1))
          (div_pos (by nlinarith) hN1) (div_pos (by nlinarith) hN1) (fun _ => rfl) (fun _ => rfl)
          rfl rfl rfl rfl q i j
      · refine hg _ _ _ _ _ _ (fun k k' hkk => huv ?_) h1 k i j hk1 hk2
        have e := Prod.ext_iff.1 hkk
        exact Prod.ext (mul_right_cancel₀ hc.ne' e.1) (mul_right_cancel₀ hc.ne' e.2)
      · rintro ⟨q, hq⟩
        have : Fl.nan ∈ (Finset.univ : Finset (Fin N × Fin N)).toList.map
            (fun q => match r q with | some r => Fl.fin r | none => Fl.nan) :=
          List.mem_map.2 ⟨q, by simp, by simp only at hq; rw [hq]⟩
        exact ⟨m1 this, x1 this⟩
      · intro hall
        have hval : ∀ q, (match r q with | some r => Fl.fin r | none => Fl.nan) = Fl.fin ((r q).getD 0) := by
          intro q
          have := hall q
          simp only at this
          cases hq : r q with
          | none => exact absurd hq this
          | some x => rfl
        have hno : Fl.nan ∉ (Finset.univ : Finset (Fin N × Fin N)).toList.map
            (fun q => match r q with | some r => Fl.fin r | none => Fl.nan) := by
          intro hx
          obtain ⟨q, -, hq⟩ := List.mem_map.1 hx
          rw [hval] at hq
          cases hq
        obtain ⟨m3, m4⟩ := m2 hno
        obtain ⟨x3, x4⟩ := x2 hno
        obtain ⟨q, -, hq⟩ := List.mem_map.1 m3
        obtain ⟨q', -, hq'⟩ := List.mem_map.1 x3
        rw [hval] at hq hq'
        refine ⟨q, q', hq.symm, hq'.symm, fun q'' => ?_⟩
        have n1 := m4 _ (List.mem_map.2 ⟨q'', by simp, rfl⟩)
        have n2 := x4 _ (List.mem_map.2 ⟨q'', by simp, rfl⟩)
        rw [hval, ← hq] at n1
        rw [hval, ← hq'] at n2
        exact ⟨not_lt.1 n1, not_lt.1 n2⟩

theorem plotBeamData_panels {M N : ℕ} (hM : 0 < M) (org : Origin) (g : GridData M N) (c : ℝ)
    (u v beam : Fin 3 × Fin M → ℝ) (d0 d1 d2 : ℝ) (rest : List ℝ) (resMode : Bool)
    (figs : List (Panel N (Option ℝ)))
    (h : plotBeamData org g c u v beam (d0 :: d1 :: d2 :: rest) resMode = .ok figs) :
    ∃ p0 p1 p2, figs = [p0, p1, p2] ∧ ∀ k : Fin 3, ∃ b : Fin M → ℝ,
      (if resMode then b = fun x => beam (k, x)
        else MathFn.norm (fun x => .fin (beam (k, x))) = .ok b) ∧
      dataPanel org g c (![d0, d1, d2] k) (fun x => u (k, x)) (fun x => v (k, x)) b =
        .ok (![p0, p1, p2] k) := by
  have e1 : (List.range 3).mapM (pyIdx (d0 :: d1 :: d2 :: rest)) = .ok [d0, d1, d2] := rfl
  obtain ⟨ra, rb, r1, r2, -⟩ := range_spec hM fun k => u (0, k)
  obtain ⟨sa, sb, s1, s2, -⟩ := range_spec hM fun k => v (0, k)
  have huv : ∃ z, uvRatio (fun k => u (0, k)) (fun k => v (0, k)) = .ok z := by
    unfold uvRatio
    simp only [r1, r2, s1, s2, bind, Except.bind, pure, Except.pure]
    exact ⟨_, rfl⟩
  obtain ⟨z, huv⟩ := huv
  have tail : ∀ b : Fin 3 × Fin M → ℝ, ([d0, d1, d2].zip (List.finRange 3)).mapM (fun x =>
      dataPanel org g c x.1 (fun k => u (x.2, k)) (fun k => v (x.2, k)) (fun k => b (x.2, k))) = .ok figs →
      ∃ p0 p1 p2, figs = [p0, p1, p2] ∧ ∀ k : Fin 3, dataPanel org g c (![d0, d1, d2] k)
        (fun x => u (k, x)) (fun x => v (k, x)) (fun x => b (k, x)) = .ok (![p0, p1, p2] k) := by
    intro b hb
    rw [show List.finRange 3 = [0, 1, 2] from rfl] at hb
    have := mapM_inv _ _ _ hb
    rcases this with _ | ⟨q0, _ | ⟨q1, _ | ⟨q2, _ | _⟩⟩⟩
    refine ⟨_, _, _, rfl, fun k => ?_⟩
    match k with
    | 0 => exact q0
    | 1 => exact q1
    | 2 => exact q2
  unfold plotBeamData at h
  cases resMode with
  | true =>
    simp only [if_true, bind, Except.bind] at h
    rw [e1] at h
    simp only [huv] at h
    obtain ⟨p0, p1, p2, rfl, hp⟩ := tail beam h
    exact ⟨p0, p1, p2, rfl, fun k => ⟨_, rfl, hp k⟩⟩
  | false =>
    obtain ⟨r, hr, hrow⟩ := C27_axis1 hM fun q : Fin 3 × Fin M => Fl.fin (beam q)
    simp only [hr, bind, Except.bind, Bool.false_eq_true, if_false] at h
    rw [e1] at h
    simp only [huv] at h
    obtain ⟨p0, p1, p2, rfl, hp⟩ := tail r h
    refine ⟨p0, p1, p2, rfl, fun k => ⟨_, ?_, hp k⟩⟩
    simp only [Bool.false_eq_true, if_false]
    exact hrow k

/-! ## Phases -/

/-- **C72.**  `plot_beam_data` has one panel per map, in order.  The values are the map of the panel,
normalised on its own unless `res_mode` is set.  When the positions of the map do not repeat and are not
all on a line along an axis, the axes run over the range of these positions in the unit asked for, the
pixel over a grid node has the value of that node, a node on an observed position has the value observed
there and the colours run from the smallest to the largest value shown. -/
theorem C72_data {M N : ℕ} (hN : 2 ≤ N) (hM : 0 < M) (org : Origin) (g : GridData M N)
    (hg : Spec.Interpolates g) (c : ℝ) (hc : 0 < c)
    (u v beam : Fin 3 × Fin M → ℝ) (d0 d1 d2 : ℝ) (rest : List ℝ) (resMode : Bool)
    (figs : List (Panel N (Option ℝ)))
    (h : plotBeamData org g c u v beam (d0 :: d1 :: d2 :: rest) resMode = .ok figs) :
    ∃ p0 p1 p2, figs = [p0, p1, p2] ∧ ∀ k : Fin 3, ∃ b : Fin M → ℝ,
      (if resMode then b = fun x => beam (k, x)
        else MathFn.norm (fun x => .fin (beam (k, x))) = .ok b) ∧
      ∀ ua ub va vb, Spec.Range (fun x => u (k, x)) ua ub → Spec.Range (fun x => v (k, x)) va vb →
        ua < ub → va < vb → Function.Injective (fun x => (u (k, x), v (k, x))) →
        Spec.ShowsData org c (![d0, d1, d2] k) (fun x => u (k, x)) (fun x => v (k, x)) b ua ub va vb
          (![p0, p1, p2] k) := by
  obtain ⟨p0, p1, p2, rfl, hp⟩ := plotBeamData_panels hM org g c u v beam d0 d1 d2 rest resMode figs h
  refine ⟨p0, p1, p2, rfl, fun k => ?_⟩
  obtain ⟨b, hb, hk⟩ := hp k
  exact ⟨b, hb, fun ua ub va vb hu hv hua hva huv =>
    dataPanel_shows hN org g hg c hc _ _ _ _ ua ub va vb hu hv hua hva huv _ hk⟩

/-- **C72.**  `plot_phase` shows `phase(K_coeff, pr, piston, tilt)`: the pixel over each sample has
the phase there, and the title of the colour bar names exactly the terms left out. -/
theorem C72_phase (org : Origin) (K : List ℝ) (pr : ℝ) (hpr : 0 < pr) (piston tilt : Bool)
    (fig : PhaseFig 1000 1000) (h : plotPhase org K pr piston tilt = .ok fig) :
    ∃ p, phase K pr piston tilt 1000 = .ok p ∧ fig.data = p.phi ∧ fig.cx = p.x ∧ fig.cy = p.y ∧
      (∀ i j q, Spec.Covers (⟨fig.data, fig.left, fig.right, fig.bottom, fig.top, fig.origin, .nan, .nan⟩ :
        Img 1000 1000 ℝ) q (p.x j) (p.y i) ↔ q = (Spec.rowAt org i, j)) ∧
      fig.noPiston = !piston ∧ fig.noTilt = !tilt ∧
      ∀ k : Fin 9, fig.levels k = -2 + (k : ℕ) / 2 := by
  unfold plotPhase at h
  cases hp : phase K pr piston tilt 1000 with
  | error e => cases piston <;> cases tilt <;> simp [hp, bind, Except.bind] at h
  | ok p =>
    have hx : p.x = linspace (-pr) pr 1000 ∧ p.y = linspace (-pr) pr 1000 := by
      unfold phase at hp
      cases h1 : maskCoeff K piston tilt with
      | error e => simp [h1, bind, Except.bind] at hp
      | ok K' =>
        simp only [h1, bind, Except.bind] at hp
        revert hp
        cases wavefront (fun q => (cart2pol (meshX (linspace (-pr) pr 1000) (linspace (-pr) pr 1000) q)
          (meshY (linspace (-pr) pr 1000) (linspace (-pr) pr 1000) q)).1 / pr)
          (fun q => (cart2pol (meshX (linspace (-pr) pr 1000) (linspace (-pr) pr 1000) q)
          (meshY (linspace (-pr) pr 1000) (linspace (-pr) pr 1000) q)).2) K' with
        | error e => intro hp; cases hp
        | ok W => intro hp; cases hp; exact ⟨rfl, rfl⟩
    have hfig : fig = ⟨p.phi, -pr, pr, -pr, pr, org, p.x, p.y, linspace (-2) 2 9, !piston, !tilt⟩ := by
      cases piston <;> cases tilt <;> simp [hp, bind, Except.bind, pure, Except.pure] at h <;>
        exact h.symm
    subst hfig
    refine ⟨p, rfl, rfl, rfl, rfl, fun i j q => ?_, rfl, rfl, fun k => ?_⟩
    · have hend : linspace (-pr) pr 1000 (⟨1000 - 1, by norm_num⟩ : Fin 1000) = pr := by
        rw [linspace_step]; norm_num; ring
      have hst : linspace (-pr) pr 1000 (⟨0, by norm_num⟩ : Fin 1000) = -pr := by
        rw [linspace_step]; norm_num
      refine covers_iff (by norm_num) _ p.x p.y (-pr) (-pr) ((pr - -pr) / (((1000 : ℕ) : ℝ) - 1))
        ((pr - -pr) / (((1000 : ℕ) : ℝ) - 1)) (div_pos (by linarith) (by norm_num))
        (div_pos (by linarith) (by norm_num)) (fun j => ?_) (fun j => ?_) ?_ ?_ ?_ ?_ q i j
      · rw [hx.1]; rfl
      · rw [hx.2]; rfl
      · simp only [hx.1]; exact hst.symm
      · simp only [hx.1]; exact hend.symm
      · simp only [hx.2]; exact hst.symm
      · simp only [hx.2]; exact hend.symm
    · simp only [linspace_step]
      push_cast
      ring

/-- **C72.**  `plot_phase_data` puts entry `[i][j]` at `(x_j, y_i)` of an even grid over the aperture
square; an array that is not square raises `TypeError`. -/
theorem C72_phase_data {m n : ℕ} (org : Origin) (data : Fin m × Fin n → ℝ) (pr : ℝ) (hpr : 0 < pr)
    (hm : 2 ≤ m) :
    (m ≠ n → plotPhaseData org data pr = .error .typeError) ∧
    ∀ h : m = n, ∃ fig, plotPhaseData org data pr = .ok fig ∧ fig.data = data ∧
      (∀ j, fig.cx j = -pr + (j : ℕ) * (2 * pr / ((n : ℝ) - 1))) ∧
      (∀ i, fig.cy i = -pr + (i : ℕ) * (2 * pr / ((n : ℝ) - 1))) ∧
      ∀ (i : Fin m) (j : Fin n) (q : Fin m × Fin n), Spec.Covers (⟨fig.data, fig.left, fig.right,
        fig.bottom, fig.top, fig.origin, .nan, .nan⟩ : Img m n ℝ) q (fig.cx j) (fig.cy i) ↔
          q = (Spec.rowAt org i, j) := by
  constructor
  · intro hne
    unfold plotPhaseData
    rw [dif_neg hne]
  · rintro rfl
    have hN1 : (0 : ℝ) < (m : ℝ) - 1 := by
      have : (2 : ℝ) ≤ m := by exact_mod_cast hm
      linarith
    unfold plotPhaseData
    rw [dif_pos rfl]
    refine ⟨_, rfl, rfl, fun j => ?_, fun i => ?_, fun i j q => ?_⟩
    · simp only [linspace_step, Fin.val_cast]; ring
    · simp only [linspace_step]; ring
    · have hend : linspace (-pr) pr m (⟨m - 1, by omega⟩ : Fin m) = pr := by
        rw [linspace_step, Nat.cast_sub (by omega)]
        push_cast
        field_simp
        ring
      have hst : linspace (-pr) pr m (⟨0, by omega⟩ : Fin m) = -pr := by
        rw [linspace_step]; norm_num
      refine covers_iff hm _ (fun j : Fin m => linspace (-pr) pr m (j.cast rfl)) (linspace (-pr) pr m)
        (-pr) (-pr) ((pr - -pr) / ((m : ℝ) - 1)) ((pr - -pr) / ((m : ℝ) - 1))
        (div_pos (by linarith) hN1) (div_pos (by linarith) hN1) (fun j => rfl) (fun j => rfl)
        hst.symm hend.symm hst.symm hend.symm q i j

/-! ## Cases that meet the hypotheses -/

/-- A uniformly lit square without obstruction, on the smallest grid. -/
theorem plain_pattern (d : ℝ) : ∃ P : Pattern 2, radiationPattern [1] [0] d 1 (fun _ _ _ _ => .ok fun _ => 1)
    ⟨fun _ _ => .ok fun _ => 1, fun _ _ _ => .ok fun _ => 0, 1⟩ 1 = .ok P ∧
    ∃ q q', ‖P.F q‖ ≠ ‖P.F q'‖ := by
  have : ∃ P : Pattern 2, radiationPattern [1] [0] d 1 (fun _ _ _ _ => .ok fun _ => 1)
      ⟨fun _ _ => .ok fun _ => 1, fun _ _ _ => .ok fun _ => 0, 1⟩ 1 = .ok P := by
    rw [C14_ok_iff _ _ _ _ _ le_rfl]
    exact ⟨_, aperture_ok_iff.2 ⟨_, _, _, _, rfl, wavefront_ok _ _ _ 0 rfl, rfl, rfl, rfl⟩⟩
  obtain ⟨P, h⟩ := this
  refine ⟨P, h, (1, 1), (1, 0), ?_⟩
  obtain ⟨E, hE, hF⟩ := C15_fourier_sum _ _ _ _ _ _ _ _ _ (by norm_num) (by norm_num) (by norm_num) h
  have hE1 : ∀ q, E q = 1 := by
    obtain ⟨B, W, dl, Ea, k1, k2, k3, k4, rfl⟩ := aperture_ok_iff.1 hE
    rw [wavefront_ok _ _ _ 0 rfl] at k2
    cases k1
    cases k2
    cases k3
    cases k4
    intro q
    simp [wfVal, tri]
  obtain ⟨-, E', -, rfl⟩ := radiationPattern_ok h
  have h1 := hF 1 1
  have h0 := hF 1 0
  simp only [hE1, Fin.sum_univ_two] at h1 h0
  have hz : ∀ t : ℂ, t = Real.pi * Complex.I → Complex.exp t = -1 := by
    rintro t rfl; exact Complex.exp_pi_mul_I
  norm_num at h1 h0
  rw [hz _ (by push_cast; ring)] at h0
  intro hcon
  dsimp only at hcon
  rw [h1, h0] at hcon
  norm_num at hcon

/-- Three offsets of it: the figure is made, in degrees, and shows what `C72_panels` says. -/
example : ∃ p0 p1 p2 P0 P1 P2,
    plotBeam .lower [1] [0] [0.02, 0, -0.02] 1 (fun _ _ _ _ => .ok fun _ => 1)
      ⟨fun _ _ => .ok fun _ => 1, fun _ _ _ => .ok fun _ => 0, 1⟩ 1 none (180 / Real.pi) =
        .ok [p0, p1, p2] ∧
      Spec.Shows (N := 2) .lower (180 / Real.pi) 0.02 P0 p0 ∧
      Spec.Shows .lower (180 / Real.pi) 0 P1 p1 ∧ Spec.Shows .lower (180 / Real.pi) (-0.02) P2 p2 := by
  have hc : 0 < 180 / Real.pi := div_pos (by norm_num) Real.pi_pos
  obtain ⟨Q0, h0, n0⟩ := plain_pattern 0.02
  obtain ⟨Q1, h1, n1⟩ := plain_pattern 0
  obtain ⟨Q2, h2, n2⟩ := plain_pattern (-0.02)
  obtain ⟨figs, hf⟩ := (C72_total .lower _ _ _ _ _ [] _ _ _ _ none (180 / Real.pi) _ _ _ (by norm_num)
    (by norm_num) (by norm_num) hc h0 h1 h2 (by simp)).1 (by
      intro P hP
      simp only [List.mem_cons, List.not_mem_nil, or_false] at hP
      rcases hP with rfl | rfl | rfl
      · exact n0
      · exact n1
      · exact n2)
  obtain ⟨p0, p1, p2, P0, P1, P2, rfl, -, s0, -, s1, -, s2⟩ := C72_panels _ _ _ _ _ _ _ _ _ _ _ _ _ _
    (by norm_num) (by norm_num) (by norm_num) hc hf
  exact ⟨p0, p1, p2, P0, P1, P2, hf, s0, s1, s2⟩

/-- An interpolation that meets the contract: the observed value on observed positions, 0 elsewhere. -/
noncomputable def pick (M N : ℕ) : GridData M N := fun u v b un vn => open Classical in
  .ok fun q => if h : ∃ k, u k = un q.2 ∧ v k = vn q.1 then some (b h.choose) else some 0

theorem pick_ok (M N : ℕ) : Spec.Interpolates (pick M N) := by
  intro u v b un vn r hinj hr k i j hu hv
  cases hr
  have h : ∃ k, u k = un j ∧ v k = vn i := ⟨k, hu, hv⟩
  simp only
  rw [dif_pos h]
  congr 2
  exact hinj (Prod.ext (h.choose_spec.1.trans hu.symm) (h.choose_spec.2.trans hv.symm))

/-- The corners of a square as observed map, on a grid of two by two. -/
example : ∃ pl, dataPanel .upper (pick 4 2) 1 0.02 ![0, 1, 0, 1] ![0, 0, 1, 1] ![5, 6, 7, 9] = .ok pl ∧
    pl.dz = 0.02 ∧ pl.img.data (1, 0) = some 7 := by
  have u2 : (![0, 1, 0, 1] : Fin 4 → ℝ) 2 = 0 := rfl
  have u3 : (![0, 1, 0, 1] : Fin 4 → ℝ) 3 = 1 := rfl
  have v2 : (![0, 0, 1, 1] : Fin 4 → ℝ) 2 = 1 := rfl
  have v3 : (![0, 0, 1, 1] : Fin 4 → ℝ) 3 = 1 := rfl
  have hu : Spec.Range ![(0 : ℝ), 1, 0, 1] 0 1 :=
    ⟨⟨0, rfl⟩, ⟨1, rfl⟩, fun k => by
      match k with
      | 0 => norm_num
      | 1 => norm_num
      | 2 => norm_num [u2]
      | 3 => norm_num [u3]⟩
  have hv : Spec.Range ![(0 : ℝ), 0, 1, 1] 0 1 :=
    ⟨⟨0, rfl⟩, ⟨2, rfl⟩, fun k => by
      match k with
      | 0 => norm_num
      | 1 => norm_num
      | 2 => norm_num [v2]
      | 3 => norm_num [v3]⟩
  have hinj : Function.Injective fun k : Fin 4 => (![(0 : ℝ), 1, 0, 1] k, ![(0 : ℝ), 0, 1, 1] k) := by
    intro a b hab
    match a, b with
    | 0, 0 | 1, 1 | 2, 2 | 3, 3 => rfl
    | 0, 1 | 0, 2 | 0, 3 | 1, 0 | 1, 2 | 1, 3 | 2, 0 | 2, 1 | 2, 3 | 3, 0 | 3, 1 | 3, 2 =>
      simp [Prod.ext_iff] at hab
  have hc : (0 : ℝ) < 1 := one_pos
  obtain ⟨a1, a2⟩ := minR_scale _ 1 hc 0 1 hu
  obtain ⟨a3, a4⟩ := minR_scale _ 1 hc 0 1 hv
  have hex : ∃ pl, dataPanel .upper (pick 4 2) 1 0.02 ![0, 1, 0, 1] ![0, 0, 1, 1] ![5, 6, 7, 9] = .ok pl := by
    obtain ⟨b1, b2⟩ := axis_range (N := 2) (by norm_num) (linspace (0 * 1) (1 * 1) 2)
      (linspace_mono (by norm_num) _ _ (by norm_num))
    cases hr : pick 4 2 (fun k => ![(0 : ℝ), 1, 0, 1] k * 1) (fun k => ![(0 : ℝ), 0, 1, 1] k * 1) ![5, 6, 7, 9]
      (linspace (0 * 1) (1 * 1) 2) (linspace (0 * 1) (1 * 1) 2) with
    | error e => cases hr
    | ok r =>
      have key := pick_ok 4 2 _ _ _ _ _ _ (by simpa using hinj) hr
      have r0 : r (0, 0) = some 5 := key 0 0 0 (by norm_num [linspace]) (by norm_num [linspace])
      have r1 : r (0, 1) = some 6 := key 1 0 1 (by norm_num [linspace]) (by norm_num [linspace])
      have r2 : r (1, 0) = some 7 := key 2 1 0 (by norm_num [linspace, u2]) (by norm_num [linspace, v2])
      have r3 : r (1, 1) = some 9 := key 3 1 1 (by norm_num [linspace, u3]) (by norm_num [linspace, v3])
      have hr' : r = fun q => some ((r q).getD 0) := by
        funext q
        match q with
        | (0, 0) => rw [r0]; rfl
        | (0, 1) => rw [r1]; rfl
        | (1, 0) => rw [r2]; rfl
        | (1, 1) => rw [r3]; rfl
      obtain ⟨a, b, e1, e2, e3⟩ := extR_ok (N := 2) (by norm_num) fun q => (r q).getD 0
      have e1' : ext arrMin r = .ok (.fin ((r a).getD 0)) := by rw [hr']; exact e1
      have e2' : ext arrMax r = .ok (.fin ((r b).getD 0)) := by rw [hr']; exact e2
      have hlt : (r a).getD 0 < (r b).getD 0 := by
        have f1 := (e3 (0, 0)).1
        have f2 := (e3 (1, 1)).2
        rw [r0] at f1
        rw [r3] at f2
        simp only [Option.getD_some] at f1 f2
        linarith
      unfold dataPanel
      simp only [a1, a2, a3, a4, b1, b2, hr, e1', e2', levels_ok _ _ hlt, bind, Except.bind, pure,
        Except.pure]
      exact ⟨_, rfl⟩
  obtain ⟨pl, h⟩ := hex
  obtain ⟨h1, h2, h3, -, h5, -⟩ := dataPanel_shows le_rfl _ _ (pick_ok 4 2) 1 hc _ _ _ _ 0 1 0 1 hu hv
    (by norm_num) (by norm_num) hinj _ h
  refine ⟨pl, h, h1, h5 1 0 2 ?_ ?_⟩
  · rw [h2]; norm_num [u2]
  · rw [h3]; norm_num [v2]

/-- `plot_phase` of six coefficients, without tilt. -/
example : ∃ fig, plotPhase .lower [0.1, 0.2, 0.3, -0.1, 0.4, 0.05] 50 true false = .ok fig ∧
    fig.noPiston = false ∧ fig.noTilt = true := by
  obtain ⟨K', -, -, hp⟩ := phase_ok [0.1, 0.2, 0.3, -0.1, 0.4, 0.05] 50 true false 1000 2 rfl (by simp)
  have : ∃ fig, plotPhase .lower [0.1, 0.2, 0.3, -0.1, 0.4, 0.05] 50 true false = .ok fig := by
    unfold plotPhase
    simp only [hp, bind, Except.bind, pure, Except.pure]
    exact ⟨_, rfl⟩
  obtain ⟨fig, h⟩ := this
  obtain ⟨p, -, -, -, -, -, h1, h2, -⟩ := C72_phase _ _ _ (by norm_num) _ _ _ h
  exact ⟨fig, h, h1, h2⟩

end Verif.Props
