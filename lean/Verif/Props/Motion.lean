import Verif.Props.Ambiguity
import Verif.Lemmas.Interp

/-!
# Turned and mirrored maps (C103)
-/

namespace Verif.Props

open Verif Verif.Np Verif.Zernike Verif.Aperture Verif.Telgeometry Verif.Core Finset

/-- The two motions that generate the symmetries of the square: a quarter turn and the mirroring in the
first axis. -/
inductive Spec.Motion
  | turn
  | flip

/-- The moved point. -/
def Spec.Motion.pt : Spec.Motion → ℝ × ℝ → ℝ × ℝ
  | .turn, p => (-p.2, p.1)
  | .flip, p => (p.1, -p.2)

/-- `K'` are the coefficients of the wavefront read at the moved points, by the rules of C76. -/
def Spec.Motion.Coeffs : Spec.Motion → List ℝ → List ℝ → Prop
  | .turn, K, K' => Spec.Turned (Real.pi / 2) K K'
  | .flip, K, K' => Spec.Mirrored K K'

/-- The index of the moved grid point; rows go with `y`, columns with `x`. -/
def Spec.Motion.idx {N : ℕ} : Spec.Motion → Fin N × Fin N → Fin N × Fin N
  | .turn, q => (q.2, q.1.rev)
  | .flip, q => (q.1.rev, q.2)

/-- The blockage times the illumination with `I'` at a point of the grid is that with `I` at the moved
point, and the path difference is the same at both. -/
def Spec.Motion.Carries (m : Spec.Motion) {N : ℕ} (I I' : List ℝ) (illum : Illum (Fin N × Fin N))
    (tel : TelGeo (Fin N × Fin N)) (bf : ℝ) : Prop :=
  (∃ B Ea Ea', tel.block (fun q => Spec.gridPoint tel.pr bf N q.2)
      (fun q => Spec.gridPoint tel.pr bf N q.1) = .ok B ∧
    illum (fun q => Spec.gridPoint tel.pr bf N q.2)
      (fun q => Spec.gridPoint tel.pr bf N q.1) I tel.pr = .ok Ea ∧
    illum (fun q => Spec.gridPoint tel.pr bf N q.2)
      (fun q => Spec.gridPoint tel.pr bf N q.1) I' tel.pr = .ok Ea' ∧
    ∀ q, B q * Ea' q = B (m.idx q) * Ea (m.idx q)) ∧
  ∀ dz, ∃ d, tel.opd (fun q => Spec.gridPoint tel.pr bf N q.2)
      (fun q => Spec.gridPoint tel.pr bf N q.1) dz = .ok d ∧ ∀ q, d (m.idx q) = d q

theorem idx_point (m : Spec.Motion) (pr bf : ℝ) {N : ℕ} (hN : 2 ≤ N) (q : Fin N × Fin N) :
    (Spec.gridPoint pr bf N (m.idx q).2, Spec.gridPoint pr bf N (m.idx q).1) =
      m.pt (Spec.gridPoint pr bf N q.2, Spec.gridPoint pr bf N q.1) := by
  cases m <;> simp [Spec.Motion.idx, Spec.Motion.pt, gridPoint_rev _ _ hN]

theorem coeffs_length {m : Spec.Motion} {K K' : List ℝ} (h : m.Coeffs K K') : K'.length = K.length := by
  cases m
  · exact h.1
  · exact h.1

theorem wfVal_motion (m : Spec.Motion) (n : ℕ) (K K' : List ℝ) (hK : K.length = tri (n + 1))
    (h : m.Coeffs K K') (pr : ℝ) (p : ℝ × ℝ) :
    wfVal n K' ((cart2pol p.1 p.2).1 / pr) (cart2pol p.1 p.2).2 =
      wfVal n K ((cart2pol (m.pt p).1 (m.pt p).2).1 / pr) (cart2pol (m.pt p).1 (m.pt p).2).2 := by
  cases m
  · have := wfVal_turn n K K' _ hK h pr p.1 p.2
    simpa [Real.cos_pi_div_two, Real.sin_pi_div_two, Spec.Motion.pt] using this
  · exact wfVal_mirror n K K' hK h pr p.1 p.2

/-- The aperture of the moved coefficients is the moved aperture. -/
theorem aperture_motion (m : Spec.Motion) {N : ℕ} (hN : 2 ≤ N) (I I' K K' : List ℝ) (dz wavel : ℝ)
    (illum : Illum (Fin N × Fin N)) (tel : TelGeo (Fin N × Fin N)) (bf : ℝ)
    (hc : m.Carries I I' illum tel bf) (h : m.Coeffs K K') (n : ℕ) (hK : K.length = tri (n + 1)) :
    ∃ E, aperture (fun q => Spec.gridPoint tel.pr bf N q.2)
        (fun q => Spec.gridPoint tel.pr bf N q.1) I K dz wavel illum tel = .ok E ∧
      aperture (fun q => Spec.gridPoint tel.pr bf N q.2)
        (fun q => Spec.gridPoint tel.pr bf N q.1) I' K' dz wavel illum tel =
      .ok (fun q => E (m.idx q)) := by
  obtain ⟨⟨B, Ea, Ea', b1, b2, b3, b4⟩, ho⟩ := hc
  obtain ⟨d, o1, o2⟩ := ho dz
  have h1 := wavefront_ok (fun q : Fin N × Fin N => (cart2pol (Spec.gridPoint tel.pr bf N q.2)
      (Spec.gridPoint tel.pr bf N q.1)).1 / tel.pr)
    (fun q => (cart2pol (Spec.gridPoint tel.pr bf N q.2) (Spec.gridPoint tel.pr bf N q.1)).2) K n hK
  have h2 := wavefront_ok (fun q : Fin N × Fin N => (cart2pol (Spec.gridPoint tel.pr bf N q.2)
      (Spec.gridPoint tel.pr bf N q.1)).1 / tel.pr)
    (fun q => (cart2pol (Spec.gridPoint tel.pr bf N q.2) (Spec.gridPoint tel.pr bf N q.1)).2) K' n
    ((coeffs_length h).trans hK)
  refine ⟨_, aperture_ok_iff.2 ⟨B, _, d, Ea, b1, h1, o1, b2, rfl⟩,
    aperture_ok_iff.2 ⟨B, _, d, Ea', b1, h2, o1, b3, ?_⟩⟩
  funext q
  have hw := wfVal_motion m n K K' hK h tel.pr
    (Spec.gridPoint tel.pr bf N q.2, Spec.gridPoint tel.pr bf N q.1)
  rw [← idx_point m tel.pr bf hN q] at hw
  rw [hw, o2, b4]

/-- The far field of the moved aperture is the far field in the moved direction. -/
theorem farField_motion (m : Spec.Motion) (pr bf wavel : ℝ) {N : ℕ} (hN : 2 ≤ N)
    (E : Fin N × Fin N → ℂ) (w : ℝ × ℝ) :
    Spec.farField pr bf wavel (fun q => E (m.idx q)) w.1 w.2 =
      Spec.farField pr bf wavel E (m.pt w).1 (m.pt w).2 := by
  unfold Spec.farField
  cases m
  · rw [Finset.sum_comm]
    refine sum_congr rfl fun b _ => ?_
    rw [← Equiv.sum_comp Fin.revPerm]
    refine sum_congr rfl fun a _ => ?_
    simp only [Fin.revPerm_apply, Spec.Motion.idx, Spec.Motion.pt, Fin.rev_rev, gridPoint_rev _ _ hN]
    congr 4
    ring
  · rw [← Equiv.sum_comp Fin.revPerm]
    refine sum_congr rfl fun a _ => ?_
    refine sum_congr rfl fun b _ => ?_
    simp only [Fin.revPerm_apply, Spec.Motion.idx, Spec.Motion.pt, Fin.rev_rev, gridPoint_rev _ _ hN]
    congr 4
    ring

/-- **C103.**  The beam of the moved coefficients is the moved beam, pixel by pixel. -/
theorem C103_pattern (m : Spec.Motion) (I I' K K' : List ℝ) (dz wavel : ℝ) (N : ℕ)
    (illum : Illum (Fin N × Fin N)) (tel : TelGeo (Fin N × Fin N)) (bf : ℝ) (hN : 2 ≤ N)
    (hpr : tel.pr ≠ 0) (hbf : bf ≠ 0) (hw : wavel ≠ 0)
    (hc : m.Carries I I' illum tel bf) (hK : m.Coeffs K K') (n : ℕ)
    (hn : K.length = (n + 1) * (n + 2) / 2) :
    ∃ P P', radiationPattern I K dz wavel illum tel bf = .ok P ∧
      radiationPattern I' K' dz wavel illum tel bf = .ok P' ∧ P'.u = P.u ∧ P'.v = P.v ∧
      ∀ q r, (P.u r.2, P.v r.1) = m.pt (P.u q.2, P.v q.1) → ‖P'.F q‖ = ‖P.F r‖ := by
  obtain ⟨E0, h1, h2⟩ := aperture_motion m hN I I' K K' dz wavel illum tel bf hc hK n hn
  obtain ⟨P, hP⟩ : ∃ P, radiationPattern I K dz wavel illum tel bf = .ok P := by
    rw [C14_ok_iff _ _ _ _ _ hN, linspace_grid]; exact ⟨_, h1⟩
  obtain ⟨P', hP'⟩ : ∃ P', radiationPattern I' K' dz wavel illum tel bf = .ok P' := by
    rw [C14_ok_iff _ _ _ _ _ hN, linspace_grid]; exact ⟨_, h2⟩
  obtain ⟨E, hE, hF⟩ := C69_far_field _ _ dz wavel N illum tel bf P hpr hbf hw hP
  obtain ⟨E', hE', hF'⟩ := C69_far_field _ _ dz wavel N illum tel bf P' hpr hbf hw hP'
  rw [h1] at hE
  cases hE
  rw [h2] at hE'
  cases hE'
  have huv : P'.u = P.u ∧ P'.v = P.v := by
    obtain ⟨-, -, -, rfl⟩ := radiationPattern_ok hP
    obtain ⟨-, -, -, rfl⟩ := radiationPattern_ok hP'
    exact ⟨rfl, rfl⟩
  refine ⟨P, P', hP, hP', huv.1, huv.2, ?_⟩
  rintro ⟨i, j⟩ ⟨k, l⟩ h
  have h3 := farField_motion m tel.pr bf wavel hN E0 (P.u j, P.v i)
  rw [← h] at h3
  rw [hF', hF, huv.1, huv.2]
  exact congrArg _ h3

/-! ### Between the pixels -/

/-- On a grid with equal steps around zero, the values mirrored are interpolated to the value at the
mirrored place. -/
theorem lin_mirror {n c : ℕ} (hc : c = 2 * (n / 2)) (hn : 2 ≤ n) (g : Fin n → ℝ) (d : ℝ) (hd : 0 < d)
    (hg : ∀ i, g i = (((i : ℕ) : ℝ) - ((n / 2 : ℕ) : ℝ)) * d) (x : ℝ) (h1 : inGrid g x)
    (h2 : inGrid g (-x)) (f f' : ℕ → ℝ) (hf : ∀ i j, i < n → j < n → i + j = c → f' i = f j) :
    lin f' (cellIdx g x) (cellDist g x) = lin f (cellIdx g (-x)) (cellDist g (-x)) := by
  have hm : StrictMono g := by
    intro a b hab
    have : ((a : ℕ) : ℝ) < ((b : ℕ) : ℝ) := by exact_mod_cast hab
    rw [hg, hg]
    nlinarith
  have hc' : (c : ℝ) = 2 * ((n / 2 : ℕ) : ℝ) := by rw [hc]; push_cast; ring
  have hneg : ∀ i j : Fin n, (i : ℕ) + j = c → g j = -g i := by
    intro i j h
    have h' : ((i : ℕ) : ℝ) + ((j : ℕ) : ℝ) = c := by exact_mod_cast h
    rw [hg, hg]
    have : ((j : ℕ) : ℝ) = 2 * ((n / 2 : ℕ) : ℝ) - ((i : ℕ) : ℝ) := by linarith
    rw [this]; ring
  obtain ⟨hi, h3, h4⟩ := cell_spec hn g hm x h1
  obtain ⟨hj, h5, h6⟩ := cell_spec hn g hm (-x) h2
  set i := cellIdx g x with hidef
  rw [gridAt_lt g (by omega)] at h3
  rw [gridAt_lt g hi] at h4
  rw [gridAt_lt g hj] at h6
  by_cases hcase : c - i < n
  · -- the mirrored cell is in the grid
    have ha : c - i - 1 + 1 = c - i := by omega
    have e1 : g ⟨c - i - 1, by omega⟩ = -g ⟨i + 1, hi⟩ := hneg _ _ (by show i + 1 + (c - i - 1) = c; omega)
    have e2 : g ⟨c - i - 1 + 1, by omega⟩ = -g ⟨i, by omega⟩ := hneg _ _ (by show i + (c - i - 1 + 1) = c; omega)
    rw [lin_cell hn g hm (-x) (c - i - 1) (by omega) (by rw [e1]; linarith) (by rw [e2]; linarith) f]
    rw [e1, e2]
    have hlt : g ⟨i, by omega⟩ < g ⟨i + 1, hi⟩ := hm (Fin.lt_def.2 (Nat.lt_succ_self i))
    have hne : g ⟨i + 1, hi⟩ - g ⟨i, by omega⟩ ≠ 0 := by linarith
    have hs : cellDist g x = (x - g ⟨i, by omega⟩) / (g ⟨i + 1, hi⟩ - g ⟨i, by omega⟩) := by
      unfold cellDist
      rw [← hidef, gridAt_lt g (by omega), gridAt_lt g hi]
    rw [hs]
    unfold lin
    rw [hf i (c - i) (by omega) (by omega) (by omega), hf (i + 1) (c - i - 1) (by omega) (by omega) (by omega), ha]
    have hne' : -g ⟨i, by omega⟩ - -g ⟨i + 1, hi⟩ ≠ 0 := by intro h; apply hne; linarith
    field_simp
    ring
  · -- the first node of an even grid has no counterpart; the point is the second node
    have hi0 : i = 0 := by omega
    have hcn : c = n := by omega
    have hle : -x ≤ g ⟨n - 1, by omega⟩ := h6.trans (hm.monotone (Fin.le_def.2 (by
      show cellIdx g (-x) + 1 ≤ n - 1
      omega)))
    have e1 : g ⟨n - 1, by omega⟩ = -g ⟨1, by omega⟩ := hneg _ _ (by show 1 + (n - 1) = c; omega)
    have hle2 : x ≤ g ⟨1, by omega⟩ := by
      have : (⟨i + 1, hi⟩ : Fin n) = ⟨1, by omega⟩ := Fin.ext (by show i + 1 = 1; omega)
      rw [this] at h4
      exact h4
    have hx : x = g ⟨1, by omega⟩ := by linarith
    have hx' : -x = g ⟨n - 1, by omega⟩ := by rw [e1, hx]
    rw [hidef, hx', hx, lin_node hn g hm, lin_node hn g hm]
    exact hf _ _ (by show 1 < n; omega) (by show n - 1 < n; omega) (by show 1 + (n - 1) = c; omega)

theorem lin_comm (V : ℕ → ℕ → ℝ) (i j : ℕ) (s t : ℝ) :
    lin (fun a => lin (fun b => V a b) j t) i s = lin (fun b => lin (fun a => V a b) i s) j t := by
  unfold lin
  ring

theorem lin_congr {f g : ℕ → ℝ} {i : ℕ} (s : ℝ) (h1 : f i = g i) (h2 : f (i + 1) = g (i + 1)) :
    lin f i s = lin g i s := by
  unfold lin
  rw [h1, h2]

/-- The interpolated beam of the moved coefficients is the interpolated beam at the moved place. -/
theorem evalLinear_motion (m : Spec.Motion) {n : ℕ} (hn : 2 ≤ n) (g : Fin n → ℝ) (d : ℝ) (hd : 0 < d)
    (hg : ∀ i, g i = (((i : ℕ) : ℝ) - ((n / 2 : ℕ) : ℝ)) * d) (V V' : Fin n × Fin n → ℝ)
    (hV : ∀ q r, (g r.1, g r.2) = m.pt (g q.1, g q.2) → V' q = V r) (w : ℝ × ℝ)
    (h1 : inGrid g w.1) (h2 : inGrid g w.2) (h3 : inGrid g (m.pt w).1) (h4 : inGrid g (m.pt w).2) :
    evalLinear g g V' w.1 w.2 = evalLinear g g V (m.pt w).1 (m.pt w).2 := by
  have hm : StrictMono g := by
    intro a b hab
    have : ((a : ℕ) : ℝ) < ((b : ℕ) : ℝ) := by exact_mod_cast hab
    rw [hg, hg]
    nlinarith
  have hneg : ∀ i j : Fin n, (i : ℕ) + j = 2 * (n / 2) → g j = -g i := by
    intro i j h
    have h' : ((i : ℕ) : ℝ) + ((j : ℕ) : ℝ) = 2 * ((n / 2 : ℕ) : ℝ) := by exact_mod_cast h
    rw [hg, hg]
    have : ((j : ℕ) : ℝ) = 2 * ((n / 2 : ℕ) : ℝ) - ((i : ℕ) : ℝ) := by linarith
    rw [this]; ring
  rw [evalLinear_lin, evalLinear_lin]
  obtain ⟨c1, -, -⟩ := cell_spec hn g hm _ h1
  obtain ⟨c2, -, -⟩ := cell_spec hn g hm _ h2
  cases m
  · simp only [Spec.Motion.pt] at h3 h4 hV ⊢
    rw [lin_comm (fun a b => valAt V a b)]
    have key : ∀ i, i < n → lin (fun j => valAt V' i j) (cellIdx g w.2) (cellDist g w.2) =
        lin (fun a => valAt V a i) (cellIdx g (-w.2)) (cellDist g (-w.2)) := by
      intro i hi
      refine lin_mirror rfl hn g d hd hg w.2 h2 h3 _ _ fun a b ha hb hab => ?_
      rw [valAt_lt _ hi ha, valAt_lt _ hb hi]
      exact hV _ _ (by rw [hneg ⟨a, ha⟩ ⟨b, hb⟩ hab])
    exact lin_congr _ (key _ (by omega)) (key _ c1)
  · simp only [Spec.Motion.pt] at h3 h4 hV ⊢
    have key : ∀ i, i < n → lin (fun j => valAt V' i j) (cellIdx g w.2) (cellDist g w.2) =
        lin (fun j => valAt V i j) (cellIdx g (-w.2)) (cellDist g (-w.2)) := by
      intro i hi
      refine lin_mirror rfl hn g d hd hg w.2 h2 h4 _ _ fun a b ha hb hab => ?_
      rw [valAt_lt _ hi ha, valAt_lt _ hi hb]
      exact hV _ _ (by rw [hneg ⟨a, ha⟩ ⟨b, hb⟩ hab])
    exact lin_congr _ (key _ (by omega)) (key _ c1)

/-! ### The objective of the fit -/

/-- The half width of the region of the beam map that lies in the map on both sides of the axis. -/
noncomputable def Spec.beamReach (pr bf wavel : ℝ) (N : ℕ) : ℝ :=
  (((N - 1) / 2 : ℕ) : ℝ) * (wavel / (N * (2 * pr * bf / ((N : ℝ) - 1))))

theorem inGrid_reach {n : ℕ} (hn : 2 ≤ n) (g : Fin n → ℝ) (d : ℝ) (hd : 0 < d)
    (hg : ∀ i, g i = (((i : ℕ) : ℝ) - ((n / 2 : ℕ) : ℝ)) * d) (x : ℝ)
    (hx : |x| ≤ (((n - 1) / 2 : ℕ) : ℝ) * d) : inGrid g x := by
  obtain ⟨h1, h2⟩ := abs_le.1 hx
  refine ⟨⟨⟨0, by omega⟩, ?_⟩, ⟨n - 1, by omega⟩, ?_⟩
  · rw [hg]
    have : (((n - 1) / 2 : ℕ) : ℝ) ≤ ((n / 2 : ℕ) : ℝ) := by
      exact_mod_cast (by omega : (n - 1) / 2 ≤ n / 2)
    push_cast
    nlinarith
  · rw [hg]
    have : (((n - 1) / 2 : ℕ) : ℝ) + ((n / 2 : ℕ) : ℝ) = ((n - 1 : ℕ) : ℝ) := by
      exact_mod_cast (by omega : (n - 1) / 2 + n / 2 = n - 1)
    show x ≤ (((n - 1 : ℕ) : ℝ) - _) * d
    rw [← this]
    nlinarith

theorem pt_abs (m : Spec.Motion) (w : ℝ × ℝ) (L : ℝ) (h1 : |w.1| ≤ L) (h2 : |w.2| ≤ L) :
    |(m.pt w).1| ≤ L ∧ |(m.pt w).2| ≤ L := by
  cases m <;> simp [Spec.Motion.pt, h1, h2]

theorem modelRow_motion (m : Spec.Motion) {N M : ℕ} (hN : 2 ≤ N) (I I' K K' : List ℝ)
    (hI : I.length = 5) (hI' : I'.length = 5)
    (u v u' v' : Fin 3 × Fin M → ℝ) (dz : Fin 3 → ℝ) (wavel : ℝ) (illum : Illum (Fin N × Fin N))
    (tel : TelGeo (Fin N × Fin N)) (bf : ℝ) (hpr : 0 < tel.pr) (hbf : 0 < bf) (hw : 0 < wavel)
    (hc : m.Carries I I' illum tel bf) (hK : m.Coeffs K K') (n : ℕ)
    (hn : K.length = (n + 1) * (n + 2) / 2)
    (hb : ∀ q, |u' q| ≤ Spec.beamReach tel.pr bf wavel N ∧ |v' q| ≤ Spec.beamReach tel.pr bf wavel N)
    (hm : ∀ q, (u q, v q) = m.pt (u' q, v' q)) (i : Fin 3) :
    ∃ b, modelRow (I ++ K) u v dz wavel illum tel bf i = .ok b ∧
      modelRow (I' ++ K') u' v' dz wavel illum tel bf i = .ok b := by
  obtain ⟨P, P', h1, h2, h3, h4, h5⟩ := C103_pattern m I I' K K' (dz i) wavel N illum tel bf hN hpr.ne'
    hbf.ne' hw.ne' hc hK n hn
  have hN1 : (0 : ℝ) < (N : ℝ) - 1 := by
    have : (2 : ℝ) ≤ N := by exact_mod_cast hN
    linarith
  have hN0 : (0 : ℝ) < N := by linarith
  set d : ℝ := wavel / (N * (2 * tel.pr * bf / ((N : ℝ) - 1))) with hd
  have hd0 : 0 < d := by positivity
  have hu : ∀ j, P.u j = (((j : ℕ) : ℝ) - ((N / 2 : ℕ) : ℝ)) * d := by
    obtain ⟨-, -, -, rfl⟩ := radiationPattern_ok h1
    intro j
    simp only [hd]
    rw [show (2 : ℝ) * (tel.pr * bf) = 2 * tel.pr * bf by ring]
    ring
  have huv : P.v = P.u := (C14_axes _ _ _ _ _ _ _ _ _ hpr hbf hw h1).1.symm
  have hmono : StrictMono P.u := (C14_axes _ _ _ _ _ _ _ _ _ hpr hbf hw h1).2.1
  have hin' : ∀ q, inGrid P.u (u' q) ∧ inGrid P.u (v' q) := fun q =>
    ⟨inGrid_reach hN _ d hd0 hu _ (hb q).1, inGrid_reach hN _ d hd0 hu _ (hb q).2⟩
  have hin : ∀ q, inGrid P.u (u q) ∧ inGrid P.u (v q) := by
    intro q
    have := pt_abs m (u' q, v' q) _ (hb q).1 (hb q).2
    rw [← hm q] at this
    exact ⟨inGrid_reach hN _ d hd0 hu _ this.1, inGrid_reach hN _ d hd0 hu _ this.2⟩
  refine ⟨fun k => evalLinear P.u P.u (fun q => ‖P.F (q.2, q.1)‖ ^ 2) (u (i, k)) (v (i, k)), ?_, ?_⟩
  · refine modelRow_ok.2 ⟨P, ?_, ?_⟩
    · rw [← hI, List.take_left, List.drop_left]
      exact h1
    · unfold interpolator
      rw [huv, if_neg (not_not.2 ⟨hmono, hmono⟩), if_neg]
      rintro ⟨k, hk⟩
      exact hk (hin (i, k))
  · refine modelRow_ok.2 ⟨P', ?_, ?_⟩
    · rw [← hI', List.take_left, List.drop_left]
      exact h2
    · unfold interpolator
      rw [h4, h3, huv, if_neg (not_not.2 ⟨hmono, hmono⟩), if_neg]
      · congr 1
        funext k
        have hin1 := hin (i, k)
        have e := evalLinear_motion m hN P.u d hd0 hu (fun q => ‖P.F (q.2, q.1)‖ ^ 2)
          (fun q => ‖P'.F (q.2, q.1)‖ ^ 2) (fun q r hqr => by
            have := h5 (q.2, q.1) (r.2, r.1) (by rw [huv]; exact hqr)
            simp only [this]) (u' (i, k), v' (i, k)) (hin' (i, k)).1 (hin' (i, k)).2
          (by rw [← hm (i, k)]; exact hin1.1) (by rw [← hm (i, k)]; exact hin1.2)
        rw [← hm (i, k)] at e
        exact e
      · rintro ⟨k, hk⟩
        exact hk (hin' (i, k))

/-- **C103.**  The residual of moved maps with moved coefficients is the residual of the maps with the
coefficients. -/
theorem C103_residual (m : Spec.Motion) {N M : ℕ} (hN : 2 ≤ N) (I I' K K' : List ℝ)
    (hI : I.length = 5) (hI' : I'.length = 5) (beam : Fin 3 × Fin M → Fl)
    (u v u' v' : Fin 3 × Fin M → ℝ) (dz : Fin 3 → ℝ) (wavel : ℝ) (illum : Illum (Fin N × Fin N))
    (tel : TelGeo (Fin N × Fin N)) (bf : ℝ) (hpr : 0 < tel.pr) (hbf : 0 < bf) (hw : 0 < wavel)
    (hc : m.Carries I I' illum tel bf) (hK : m.Coeffs K K') (n : ℕ)
    (hn : K.length = (n + 1) * (n + 2) / 2)
    (hb : ∀ q, |u' q| ≤ Spec.beamReach tel.pr bf wavel N ∧ |v' q| ≤ Spec.beamReach tel.pr bf wavel N)
    (hm : ∀ q, (u q, v q) = m.pt (u' q, v' q)) :
    residualTrue (I' ++ K') beam u' v' dz wavel illum tel bf =
      residualTrue (I ++ K) beam u v dz wavel illum tel bf := by
  unfold residualTrue
  have h := modelRow_motion m hN I I' K K' hI hI' u v u' v' dz wavel illum tel bf hpr hbf hw hc hK n hn hb hm
  obtain ⟨b0, e0, e0'⟩ := h 0
  obtain ⟨b1, e1, e1'⟩ := h 1
  obtain ⟨b2, e2, e2'⟩ := h 2
  rw [e0, e0', e1, e1', e2, e2']

/-- What the fit is about: the illumination and Zernike coefficients and the coordinates of the maps. -/
structure Spec.Situation (M : ℕ) where
  I : List ℝ
  K : List ℝ
  u : Fin 3 × Fin M → ℝ
  v : Fin 3 × Fin M → ℝ

/-- `b` is obtained from `a` by quarter turns and mirrorings, in any number and order. -/
inductive Spec.Moved {N M : ℕ} (illum : Illum (Fin N × Fin N)) (tel : TelGeo (Fin N × Fin N)) (bf : ℝ)
    (a : Spec.Situation M) : Spec.Situation M → Prop
  | none : Spec.Moved illum tel bf a a
  | step (m : Spec.Motion) (b c : Spec.Situation M) (h : Spec.Moved illum tel bf a b)
      (hI : c.I.length = 5) (hc : m.Carries b.I c.I illum tel bf) (hK : m.Coeffs b.K c.K)
      (hm : ∀ q, (b.u q, b.v q) = m.pt (c.u q, c.v q)) : Spec.Moved illum tel bf a c

/-- **C103.**  And so for all symmetries of the square. -/
theorem C103_all {N M : ℕ} (hN : 2 ≤ N) (beam : Fin 3 × Fin M → Fl) (dz : Fin 3 → ℝ) (wavel : ℝ)
    (illum : Illum (Fin N × Fin N)) (tel : TelGeo (Fin N × Fin N)) (bf : ℝ)
    (hpr : 0 < tel.pr) (hbf : 0 < bf) (hw : 0 < wavel) (a b : Spec.Situation M)
    (hI : a.I.length = 5) (n : ℕ) (hn : a.K.length = (n + 1) * (n + 2) / 2)
    (hb : ∀ q, |b.u q| ≤ Spec.beamReach tel.pr bf wavel N ∧ |b.v q| ≤ Spec.beamReach tel.pr bf wavel N)
    (h : Spec.Moved illum tel bf a b) :
    residualTrue (b.I ++ b.K) beam b.u b.v dz wavel illum tel bf =
      residualTrue (a.I ++ a.K) beam a.u a.v dz wavel illum tel bf := by
  induction h with
  | none => rfl
  | step m b c h hI' hc hK hm ih =>
    have key : b.I.length = 5 ∧ b.K.length = (n + 1) * (n + 2) / 2 := by
      clear hb hm hK hc hI' ih
      induction h with
      | none => exact ⟨hI, hn⟩
      | step m b c h hI hc hK hm ih => exact ⟨hI, (coeffs_length hK).trans ih.2⟩
    rw [C103_residual m hN b.I c.I b.K c.K key.1 hI' beam b.u b.v c.u c.v dz wavel illum tel bf hpr hbf hw
      hc hK n key.2 hb hm]
    refine ih fun q => ?_
    have := pt_abs m (c.u q, c.v q) _ (hb q).1 (hb q).2
    rw [← hm q] at this
    exact this

/-! ### The best fit -/

/-- Coefficients can be prescribed order by order. -/
theorem exists_coeffs (f : ℕ → ℕ → ℝ) (L : ℕ) :
    ∃ K : List ℝ, K.length = L ∧ ∀ n k, k ≤ n → Spec.place n n < L → K.getD (Spec.place n k) 0 = f n k := by
  refine ⟨List.ofFn fun i : Fin L => f (Nat.findGreatest (fun n => tri n ≤ i) i)
    (i - tri (Nat.findGreatest (fun n => tri n ≤ i) i)), by simp, fun n k hk hn => ?_⟩
  have hlt : Spec.place n k < L := lt_of_le_of_lt (by unfold Spec.place; omega) hn
  have hle : n ≤ tri n := by
    induction n with
    | zero => simp
    | succ n ih => rw [tri_succ]; omega
  have hg : Nat.findGreatest (fun j => tri j ≤ Spec.place n k) (Spec.place n k) = n := by
    rw [Nat.findGreatest_eq_iff]
    refine ⟨?_, fun _ => ?_, fun j h1 _ h3 => ?_⟩
    · show n ≤ tri n + k
      omega
    · show tri n ≤ tri n + k
      omega
    · have h4 := tri_mono (show n + 1 ≤ j by omega)
      rw [tri_succ] at h4
      have : Spec.place n k = tri n + k := rfl
      omega
  rw [List.getD_eq_getElem?_getD, List.getElem?_eq_getElem (by simpa using hlt), Option.getD_some,
    List.getElem_ofFn]
  simp only [hg]
  congr 1
  show tri n + k - tri n = k
  omega

/-- Every set of coefficients is the moved one of another set. -/
theorem coeffs_back (m : Spec.Motion) (K' : List ℝ) : ∃ K, m.Coeffs K K' := by
  cases m
  · obtain ⟨K, h1, h2⟩ := exists_coeffs (fun n k =>
      K'.getD (Spec.place n k) 0 * Real.cos ((2 * k - n : ℝ) * (Real.pi / 2)) -
        K'.getD (Spec.place n (n - k)) 0 * Real.sin ((2 * k - n : ℝ) * (Real.pi / 2))) K'.length
    refine ⟨K, h1.symm, fun n k hk hn => ?_⟩
    rw [h1] at hn
    rw [h2 n k hk hn, h2 n (n - k) (by omega) hn]
    have e4 : n - (n - k) = k := by omega
    have e5 : ((2 : ℝ) * ((n - k : ℕ) : ℝ) - n) * (Real.pi / 2) = -((2 * k - n : ℝ) * (Real.pi / 2)) := by
      rw [Nat.cast_sub hk]; ring
    rw [e4, e5, Real.sin_neg, Real.cos_neg]
    have := Real.sin_sq_add_cos_sq ((2 * k - n : ℝ) * (Real.pi / 2))
    generalize Real.sin ((2 * k - n : ℝ) * (Real.pi / 2)) = s at *
    generalize Real.cos ((2 * k - n : ℝ) * (Real.pi / 2)) = c at *
    linear_combination -(K'.getD (Spec.place n k) 0) * this
  · obtain ⟨K, h1, h2⟩ := exists_coeffs (fun n k =>
      (if 2 * k < n then -1 else 1) * K'.getD (Spec.place n k) 0) K'.length
    refine ⟨K, h1.symm, fun n k hk hn => ?_⟩
    rw [h1] at hn
    rw [h2 n k hk hn]
    split_ifs <;> ring

/-- **C103.**  Coefficients that are best for the maps (whatever the loss made of the residuals), moved,
are best for the moved maps. -/
theorem C103_best (m : Spec.Motion) {N M : ℕ} (hN : 2 ≤ N) (I I' K K' : List ℝ)
    (hI : I.length = 5) (hI' : I'.length = 5) (beam : Fin 3 × Fin M → Fl)
    (u v u' v' : Fin 3 × Fin M → ℝ) (dz : Fin 3 → ℝ) (wavel : ℝ) (illum : Illum (Fin N × Fin N))
    (tel : TelGeo (Fin N × Fin N)) (bf : ℝ) (hpr : 0 < tel.pr) (hbf : 0 < bf) (hw : 0 < wavel)
    (hc : m.Carries I I' illum tel bf) (hK : m.Coeffs K K') (n : ℕ)
    (hn : K.length = (n + 1) * (n + 2) / 2)
    (hb : ∀ q, |u' q| ≤ Spec.beamReach tel.pr bf wavel N ∧ |v' q| ≤ Spec.beamReach tel.pr bf wavel N)
    (hm : ∀ q, (u q, v q) = m.pt (u' q, v' q)) (loss : List ℝ → ℝ) (r : List ℝ)
    (hr : residualTrue (I ++ K) beam u v dz wavel illum tel bf = .ok r)
    (hbest : ∀ K2 r2, K2.length = K.length →
      residualTrue (I ++ K2) beam u v dz wavel illum tel bf = .ok r2 → loss r ≤ loss r2) :
    residualTrue (I' ++ K') beam u' v' dz wavel illum tel bf = .ok r ∧
      ∀ K2 r2, K2.length = K'.length →
        residualTrue (I' ++ K2) beam u' v' dz wavel illum tel bf = .ok r2 → loss r ≤ loss r2 := by
  refine ⟨?_, fun K2 r2 hl h2 => ?_⟩
  · rw [C103_residual m hN I I' K K' hI hI' beam u v u' v' dz wavel illum tel bf hpr hbf hw hc hK n hn hb hm]
    exact hr
  · obtain ⟨K1, hK1⟩ := coeffs_back m K2
    have hlen : K1.length = K.length := by
      rw [← coeffs_length hK1, hl, coeffs_length hK]
    refine hbest K1 r2 hlen ?_
    rw [← C103_residual m hN I I' K1 K2 hI hI' beam u v u' v' dz wavel illum tel bf hpr hbf hw hc hK1 n
      (hlen.trans hn) hb hm]
    exact h2

/-! ### The telescopes and illuminations of the package -/

theorem radius_motion (m : Spec.Motion) (p c : ℝ × ℝ) :
    ((m.pt p).1 - (m.pt c).1) ^ 2 + ((m.pt p).2 - (m.pt c).2) ^ 2 = (p.1 - c.1) ^ 2 + (p.2 - c.2) ^ 2 := by
  cases m <;> simp only [Spec.Motion.pt] <;> ring

theorem radius_motion0 (m : Spec.Motion) (p : ℝ × ℝ) :
    (m.pt p).1 ^ 2 + (m.pt p).2 ^ 2 = p.1 ^ 2 + p.2 ^ 2 := by
  cases m <;> simp only [Spec.Motion.pt] <;> ring

theorem illum_motion (m : Spec.Motion) {N : ℕ} (hN : 2 ≤ N) (i c t pr bf x0 y0 x0' y0' : ℝ)
    (illum : Illum (Fin N × Fin N)) (hi : illum = illumGauss ∨ illum = illumParabolic)
    (h0 : (x0, y0) = m.pt (x0', y0')) :
    ∃ Ea Ea', illum (fun q => Spec.gridPoint pr bf N q.2)
        (fun q => Spec.gridPoint pr bf N q.1) [i, c, t, x0, y0] pr = .ok Ea ∧
      illum (fun q => Spec.gridPoint pr bf N q.2)
        (fun q => Spec.gridPoint pr bf N q.1) [i, c, t, x0', y0'] pr = .ok Ea' ∧
      ∀ q, Ea' q = Ea (m.idx q) := by
  have key : ∀ q : Fin N × Fin N, (Spec.gridPoint pr bf N (m.idx q).2 - x0) ^ 2 +
      (Spec.gridPoint pr bf N (m.idx q).1 - y0) ^ 2 =
      (Spec.gridPoint pr bf N q.2 - x0') ^ 2 + (Spec.gridPoint pr bf N q.1 - y0') ^ 2 := by
    intro q
    have e := radius_motion m (Spec.gridPoint pr bf N q.2, Spec.gridPoint pr bf N q.1) (x0', y0')
    rw [← idx_point m pr bf hN q, ← h0] at e
    exact e
  rcases hi with rfl | rfl
  · refine ⟨_, _, rfl, rfl, fun q => ?_⟩
    simp only [gaussAt, offset]
    rw [key q]
  · refine ⟨_, _, rfl, rfl, fun q => ?_⟩
    simp only [parabolicAt, offset]
    rw [key q]

/-- **C103.**  The blockage and path difference made with `block_manual` and `opd_manual`, and both
illuminations, centred or not. -/
theorem C103_manual (m : Spec.Motion) {N : ℕ} (hN : 2 ≤ N) (pr sr a L Fp F bf i c t x0 y0 x0' y0' : ℝ)
    (illum : Illum (Fin N × Fin N)) (hi : illum = illumGauss ∨ illum = illumParabolic)
    (h0 : (x0, y0) = m.pt (x0', y0')) :
    m.Carries [i, c, t, x0, y0] [i, c, t, x0', y0'] illum (manualTel pr sr a L Fp F) bf := by
  obtain ⟨Ea, Ea', h1, h1', h2⟩ := illum_motion m hN i c t pr bf x0 y0 x0' y0' illum hi h0
  obtain ⟨B, h3, h4⟩ := C24_value pr sr a L (fun q : Fin N × Fin N => Spec.gridPoint pr bf N q.2)
    (fun q => Spec.gridPoint pr bf N q.1)
  refine ⟨⟨B, Ea, Ea', h3, h1, h1', fun q => ?_⟩, fun dz => ⟨_, rfl, fun q => ?_⟩⟩
  · rw [h2]
    congr 1
    have hv : Spec.visible pr sr a L (Spec.gridPoint pr bf N (m.idx q).2)
        (Spec.gridPoint pr bf N (m.idx q).1) ↔
        Spec.visible pr sr a L (Spec.gridPoint pr bf N q.2) (Spec.gridPoint pr bf N q.1) := by
      cases m
      · simp only [Spec.Motion.idx, gridPoint_rev _ _ hN]
        rw [(C24_symmetric _ _ _ _ _ _).1, (C24_symmetric _ _ _ _ _ _).2.2]
      · simp only [Spec.Motion.idx, gridPoint_rev _ _ hN]
        rw [(C24_symmetric _ _ _ _ _ _).2.1]
    by_cases h : Spec.visible pr sr a L (Spec.gridPoint pr bf N q.2) (Spec.gridPoint pr bf N q.1)
    · rw [(h4 q).1 h, (h4 _).1 (hv.2 h)]
    · rw [(h4 q).2 h, (h4 _).2 (fun h' => h (hv.1 h'))]
  · have e := radius_motion0 m (Spec.gridPoint pr bf N q.2, Spec.gridPoint pr bf N q.1)
    rw [← idx_point m pr bf hN q] at e
    simp only [manualTel] at e ⊢
    unfold opdAt
    rw [e]

/-- **C103.**  The Effelsberg telescope, whatever the inclination of the shade of the legs. -/
theorem C103_effelsberg (m : Spec.Motion) {N : ℕ} (hN : 2 ≤ N) (alpha : ℝ) (a0 : 0 < alpha)
    (a1 : alpha < Real.pi / 2) (bf i c t x0 y0 x0' y0' : ℝ)
    (illum : Illum (Fin N × Fin N)) (hi : illum = illumGauss ∨ illum = illumParabolic)
    (h0 : (x0, y0) = m.pt (x0', y0')) :
    m.Carries [i, c, t, x0, y0] [i, c, t, x0', y0'] illum ⟨blockEffelsberg alpha, opdEffelsberg, 50⟩ bf := by
  obtain ⟨Ea, Ea', h1, h1', h2⟩ := illum_motion m hN i c t 50 bf x0 y0 x0' y0' illum hi h0
  obtain ⟨B, h4, h5⟩ := C25_value alpha a0 a1 (fun q : Fin N × Fin N => Spec.gridPoint 50 bf N q.2)
    (fun q => Spec.gridPoint 50 bf N q.1)
  refine ⟨⟨B, Ea, Ea', h4, h1, h1', fun q => ?_⟩, fun dz => ⟨_, rfl, fun q => ?_⟩⟩
  · rw [h2]
    congr 1
    have sh1 : ∀ a b : ℝ, Spec.shade alpha (-a) b ↔ Spec.shade alpha a b := by
      intro a b
      unfold Spec.shade
      rw [abs_neg]
    have sh2 : ∀ a b : ℝ, Spec.shade alpha a (-b) ↔ Spec.shade alpha a b := by
      intro a b
      unfold Spec.shade
      rw [abs_neg]
    have hv : (Spec.visible 50 3.25 1 20 (Spec.gridPoint 50 bf N (m.idx q).2)
          (Spec.gridPoint 50 bf N (m.idx q).1) ∧
        ¬ Spec.shade alpha (Spec.gridPoint 50 bf N (m.idx q).2) (Spec.gridPoint 50 bf N (m.idx q).1) ∧
        ¬ Spec.shade alpha (Spec.gridPoint 50 bf N (m.idx q).1) (Spec.gridPoint 50 bf N (m.idx q).2)) ↔
        (Spec.visible 50 3.25 1 20 (Spec.gridPoint 50 bf N q.2) (Spec.gridPoint 50 bf N q.1) ∧
        ¬ Spec.shade alpha (Spec.gridPoint 50 bf N q.2) (Spec.gridPoint 50 bf N q.1) ∧
        ¬ Spec.shade alpha (Spec.gridPoint 50 bf N q.1) (Spec.gridPoint 50 bf N q.2)) := by
      cases m
      · simp only [Spec.Motion.idx, gridPoint_rev _ _ hN]
        rw [(C24_symmetric _ _ _ _ _ _).1, (C24_symmetric _ _ _ _ _ _).2.2, sh1, sh2]
        tauto
      · simp only [Spec.Motion.idx, gridPoint_rev _ _ hN]
        rw [(C24_symmetric _ _ _ _ _ _).2.1, sh1, sh2]
    have e1 := h5 q
    have e2 := h5 (m.idx q)
    simp only [hv] at e2
    by_cases h : (Spec.visible 50 3.25 1 20 (Spec.gridPoint 50 bf N q.2) (Spec.gridPoint 50 bf N q.1) ∧
        ¬ Spec.shade alpha (Spec.gridPoint 50 bf N q.2) (Spec.gridPoint 50 bf N q.1) ∧
        ¬ Spec.shade alpha (Spec.gridPoint 50 bf N q.1) (Spec.gridPoint 50 bf N q.2))
    · rw [e1.1 h, e2.1 h]
    · rw [e1.2 h, e2.2 h]
  · have e := radius_motion0 m (Spec.gridPoint 50 bf N q.2, Spec.gridPoint 50 bf N q.1)
    rw [← idx_point m 50 bf hN q] at e
    simp only at e ⊢
    rw [e]

/-- Effelsberg with an illumination off centre: the maps turned by a quarter have the turned coefficients,
and the same residual. -/
example (beam : Fin 3 × Fin 2 → Fl) (dz : Fin 3 → ℝ) :
    residualTrue ([1, -14, 2, -0.5, 2] ++ [0.1, -0.3, 0.2, -0.4, 0.5, -0.6]) beam
        (fun q => ![0.0001, 0.0003] q.2) (fun q => ![0.0002, -0.001] q.2) dz 0.009 illumGauss
        (⟨blockEffelsberg (1 / 3), opdEffelsberg, 50⟩ : TelGeo (Fin 256 × Fin 256)) 5 =
      residualTrue ([1, -14, 2, -2, -0.5] ++ [0.1, 0.2, 0.3, 0.4, 0.5, 0.6]) beam
        (fun q => ![-0.0002, 0.001] q.2) (fun q => ![0.0001, 0.0003] q.2) dz 0.009 illumGauss
        (⟨blockEffelsberg (1 / 3), opdEffelsberg, 50⟩ : TelGeo (Fin 256 × Fin 256)) 5 := by
  refine C103_residual .turn (by norm_num) _ _ _ _ rfl rfl beam _ _ _ _ dz 0.009 illumGauss _ 5
    (by norm_num) (by norm_num) (by norm_num)
    (C103_effelsberg .turn (by norm_num) (1 / 3) (by norm_num) (by linarith [Real.pi_gt_three]) 5 1 (-14) 2
      (-2) (-0.5) (-0.5) 2 illumGauss (Or.inl rfl) (by simp [Spec.Motion.pt]))
    (turned_example 0.1 0.2 0.3 0.4 0.5 0.6).1 2 rfl ?_ ?_
  · rintro ⟨a, b⟩
    unfold Spec.beamReach
    fin_cases b <;> constructor <;> norm_num [abs_le]
  · rintro ⟨a, b⟩
    fin_cases b <;> norm_num [Spec.Motion.pt]

/-- A mirror image in the other axis is a half turn and a mirroring. -/
example (M : ℕ) (u v : Fin 3 × Fin M → ℝ) (q : Fin 3 × Fin M) :
    Spec.Motion.pt .turn (Spec.Motion.pt .turn (Spec.Motion.pt .flip (u q, v q))) = (-u q, v q) := by
  simp [Spec.Motion.pt]

end Verif.Props
