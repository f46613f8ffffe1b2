import Verif.Lemmas.Interp
import Verif.Lemmas.Radiation
import Verif.Props.Aperture
import Verif.Props.MathFn
import Verif.Props.Params

/-! # C41, C42, C43, C44 and the residual parts of C17, C18 -/

namespace Verif.Props

open Verif Verif.Np Verif.Aperture Verif.Telgeometry Verif.MathFn Verif.Core Finset

/-! ## The model beam -/

theorem interpolator_ok_iff {n M : ℕ} (g0 g1 : Fin n → ℝ) (V : Fin n × Fin n → ℝ)
    (xi : Fin M → ℝ × ℝ) (b : Fin M → ℝ) :
    interpolator g0 g1 V xi = .ok b ↔ (StrictMono g0 ∧ StrictMono g1) ∧
      (∀ k, inGrid g0 (xi k).1 ∧ inGrid g1 (xi k).2) ∧
      b = fun k => evalLinear g0 g1 V (xi k).1 (xi k).2 := by
  unfold interpolator
  by_cases h1 : StrictMono g0 ∧ StrictMono g1
  · rw [if_neg (not_not.2 h1)]
    by_cases h2 : ∃ k, ¬ (inGrid g0 (xi k).1 ∧ inGrid g1 (xi k).2)
    · rw [if_pos h2]
      simp only [reduceCtorEq, false_iff]
      rintro ⟨-, h3, -⟩
      obtain ⟨k, hk⟩ := h2
      exact hk (h3 k)
    · rw [if_neg h2]
      simp only [Except.ok.injEq]
      refine ⟨fun h => ⟨h1, fun k => ?_, h.symm⟩, fun h => h.2.2.symm⟩
      by_contra hk
      exact h2 ⟨k, hk⟩
  · rw [if_pos h1]
    simp [h1]

/-- What a returned row of the model beam consists of. -/
theorem modelRow_ok {N M : ℕ} {params : List ℝ} {u v : Fin 3 × Fin M → ℝ} {dz : Fin 3 → ℝ}
    {wavel : ℝ} {illum : Illum (Fin N × Fin N)} {tel : TelGeo (Fin N × Fin N)} {bf : ℝ} {i : Fin 3}
    {b : Fin M → ℝ} : modelRow params u v dz wavel illum tel bf i = .ok b ↔
      ∃ P, radiationPattern (params.take 5) (params.drop 5) (dz i) wavel illum tel bf = .ok P ∧
        interpolator P.u P.v (fun q => ‖P.F (q.2, q.1)‖ ^ 2) (fun k => (u (i, k), v (i, k))) = .ok b := by
  unfold modelRow
  cases h : radiationPattern (params.take 5) (params.drop 5) (dz i) wavel illum tel bf with
  | error e => simp [bind, Except.bind, h]
  | ok P => simp [bind, Except.bind, h]

/-- At a grid node the model beam is the power pattern there: column index from `u`, row
index from `v`. -/
theorem row_node {N M : ℕ} (params : List ℝ) (u v : Fin 3 × Fin M → ℝ) (dz : Fin 3 → ℝ)
    (wavel : ℝ) (illum : Illum (Fin N × Fin N)) (tel : TelGeo (Fin N × Fin N)) (bf : ℝ) (i : Fin 3)
    (P : Pattern N) (b : Fin M → ℝ)
    (hP : radiationPattern (params.take 5) (params.drop 5) (dz i) wavel illum tel bf = .ok P)
    (hb : modelRow params u v dz wavel illum tel bf i = .ok b)
    (k : Fin M) (row col : Fin N) (hu : u (i, k) = P.u col) (hv : v (i, k) = P.v row) :
    b k = ‖P.F (row, col)‖ ^ 2 := by
  obtain ⟨P', h1, h2⟩ := modelRow_ok.1 hb
  rw [hP] at h1
  cases h1
  obtain ⟨⟨m0, m1⟩, -, rfl⟩ := (interpolator_ok_iff _ _ _ _ _).1 h2
  have hN : 2 ≤ N := (radiationPattern_ok hP).1
  simp only [hu, hv]
  rw [evalLinear_lin, lin_node hN _ m0, lin_node hN _ m1, valAt_lt _ col.isLt row.isLt]

theorem convex_mem {lo hi a b s : ℝ} (ha : lo ≤ a ∧ a ≤ hi) (hb : lo ≤ b ∧ b ≤ hi)
    (hs : 0 ≤ s ∧ s ≤ 1) : lo ≤ a * (1 - s) + b * s ∧ a * (1 - s) + b * s ≤ hi := by
  obtain ⟨h1, h2⟩ := ha
  obtain ⟨h3, h4⟩ := hb
  obtain ⟨h5, h6⟩ := hs
  have h7 : 0 ≤ 1 - s := by linarith
  constructor
  · nlinarith [mul_le_mul_of_nonneg_right h1 h7, mul_le_mul_of_nonneg_right h3 h5]
  · nlinarith [mul_le_mul_of_nonneg_right h2 h7, mul_le_mul_of_nonneg_right h4 h5]

theorem unit_quot {a b x : ℝ} (hab : a < b) (hx : a ≤ x ∧ x ≤ b) :
    0 ≤ (x - a) / (b - a) ∧ (x - a) / (b - a) ≤ 1 := by
  have : 0 < b - a := by linarith
  exact ⟨div_nonneg (by linarith [hx.1]) this.le, (div_le_one this).2 (by linarith [hx.2])⟩

/-- Bilinear interpolation in the cell `[x0, x1] × [y0, y1]` with corner values `f00` (at `x0, y0`),
`f10` (at `x1, y0`), `f01`, `f11`, freed of denominators. -/
def Spec.isBilinear (x0 x1 y0 y1 f00 f10 f01 f11 x y r : ℝ) : Prop :=
  r * ((x1 - x0) * (y1 - y0)) = f00 * ((x1 - x) * (y1 - y)) + f10 * ((x - x0) * (y1 - y)) +
    f01 * ((x1 - x) * (y - y0)) + f11 * ((x - x0) * (y - y0))

/-- Inside any cell of the grid: the bilinear mean of the four corners, between the least
and the largest of them. -/
theorem row_cell {N M : ℕ} (params : List ℝ) (u v : Fin 3 × Fin M → ℝ) (dz : Fin 3 → ℝ)
    (wavel : ℝ) (illum : Illum (Fin N × Fin N)) (tel : TelGeo (Fin N × Fin N)) (bf : ℝ) (i : Fin 3)
    (P : Pattern N) (b : Fin M → ℝ)
    (hP : radiationPattern (params.take 5) (params.drop 5) (dz i) wavel illum tel bf = .ok P)
    (hb : modelRow params u v dz wavel illum tel bf i = .ok b)
    (k : Fin M) (c r : ℕ) (hc : c + 1 < N) (hr : r + 1 < N)
    (hu : P.u ⟨c, by omega⟩ ≤ u (i, k) ∧ u (i, k) ≤ P.u ⟨c + 1, hc⟩)
    (hv : P.v ⟨r, by omega⟩ ≤ v (i, k) ∧ v (i, k) ≤ P.v ⟨r + 1, hr⟩) :
    Spec.isBilinear (P.u ⟨c, by omega⟩) (P.u ⟨c + 1, hc⟩) (P.v ⟨r, by omega⟩) (P.v ⟨r + 1, hr⟩)
      (‖P.F (⟨r, by omega⟩, ⟨c, by omega⟩)‖ ^ 2) (‖P.F (⟨r, by omega⟩, ⟨c + 1, hc⟩)‖ ^ 2)
      (‖P.F (⟨r + 1, hr⟩, ⟨c, by omega⟩)‖ ^ 2) (‖P.F (⟨r + 1, hr⟩, ⟨c + 1, hc⟩)‖ ^ 2)
      (u (i, k)) (v (i, k)) (b k) ∧
    ∀ lo hi, (∀ a ∈ [r, r + 1], ∀ e ∈ [c, c + 1], ∀ (ha : a < N) (he : e < N),
        lo ≤ ‖P.F (⟨a, ha⟩, ⟨e, he⟩)‖ ^ 2 ∧ ‖P.F (⟨a, ha⟩, ⟨e, he⟩)‖ ^ 2 ≤ hi) → lo ≤ b k ∧ b k ≤ hi := by
  obtain ⟨P', h1, h2⟩ := modelRow_ok.1 hb
  rw [hP] at h1
  cases h1
  obtain ⟨⟨m0, m1⟩, -, rfl⟩ := (interpolator_ok_iff _ _ _ _ _).1 h2
  have hN : 2 ≤ N := (radiationPattern_ok hP).1
  have hx : P.u ⟨c, by omega⟩ < P.u ⟨c + 1, hc⟩ := m0 (Fin.lt_def.2 (Nat.lt_succ_self c))
  have hy : P.v ⟨r, by omega⟩ < P.v ⟨r + 1, hr⟩ := m1 (Fin.lt_def.2 (Nat.lt_succ_self r))
  simp only
  have hin : ∀ e, lin (fun j => valAt (fun q => ‖P.F (q.2, q.1)‖ ^ 2) e j)
      (cellIdx P.v (v (i, k))) (cellDist P.v (v (i, k))) = _ := fun e =>
    lin_cell hN _ m1 _ r hr hv.1 hv.2 _
  rw [evalLinear_lin]
  simp only [hin]
  rw [lin_cell hN _ m0 _ c hc hu.1 hu.2]
  simp only [lin]
  rw [valAt_lt _ (by omega : c < N) (by omega : r < N), valAt_lt _ (by omega : c < N) hr,
    valAt_lt _ hc (by omega : r < N), valAt_lt _ hc hr]
  constructor
  · unfold Spec.isBilinear
    have hx' := sub_ne_zero.2 hx.ne'
    have hy' := sub_ne_zero.2 hy.ne'
    field_simp
    ring
  · intro lo hi hcor
    have c00 := hcor r (by simp) c (by simp) (by omega) (by omega)
    have c01 := hcor (r + 1) (by simp) c (by simp) hr (by omega)
    have c10 := hcor r (by simp) (c + 1) (by simp) (by omega) hc
    have c11 := hcor (r + 1) (by simp) (c + 1) (by simp) hr hc
    have hs := unit_quot hx hu
    have ht := unit_quot hy hv
    have e1 := convex_mem c00 c01 ht
    have e2 := convex_mem c10 c11 ht
    exact convex_mem e1 e2 hs

/-- `b` is the model beam of map `i` at its `M` samples: the power of the radiation pattern for the radial
offset of that map, read off bilinearly between the four nodes around each sample.  The columns of the
pattern are along `u`, the rows along `v`. -/
def Spec.Sampled {N M : ℕ} (params : List ℝ) (u v : Fin 3 × Fin M → ℝ) (dz : Fin 3 → ℝ)
    (wavel : ℝ) (illum : Illum (Fin N × Fin N)) (tel : TelGeo (Fin N × Fin N)) (bf : ℝ) (i : Fin 3)
    (b : Fin M → ℝ) : Prop :=
  ∃ P, radiationPattern (params.take 5) (params.drop 5) (dz i) wavel illum tel bf = .ok P ∧
    StrictMono P.u ∧ StrictMono P.v ∧ ∀ k, ∃ (c r : ℕ) (hc : c + 1 < N) (hr : r + 1 < N),
      (P.u ⟨c, by omega⟩ ≤ u (i, k) ∧ u (i, k) ≤ P.u ⟨c + 1, hc⟩) ∧
      (P.v ⟨r, by omega⟩ ≤ v (i, k) ∧ v (i, k) ≤ P.v ⟨r + 1, hr⟩) ∧
      Spec.isBilinear (P.u ⟨c, by omega⟩) (P.u ⟨c + 1, hc⟩) (P.v ⟨r, by omega⟩) (P.v ⟨r + 1, hr⟩)
        (‖P.F (⟨r, by omega⟩, ⟨c, by omega⟩)‖ ^ 2) (‖P.F (⟨r, by omega⟩, ⟨c + 1, hc⟩)‖ ^ 2)
        (‖P.F (⟨r + 1, hr⟩, ⟨c, by omega⟩)‖ ^ 2) (‖P.F (⟨r + 1, hr⟩, ⟨c + 1, hc⟩)‖ ^ 2)
        (u (i, k)) (v (i, k)) (b k)

theorem sampled_iff {N M : ℕ} {params : List ℝ} {u v : Fin 3 × Fin M → ℝ} {dz : Fin 3 → ℝ}
    {wavel : ℝ} {illum : Illum (Fin N × Fin N)} {tel : TelGeo (Fin N × Fin N)} {bf : ℝ} {i : Fin 3}
    {b : Fin M → ℝ} : Spec.Sampled params u v dz wavel illum tel bf i b ↔
      modelRow params u v dz wavel illum tel bf i = .ok b := by
  constructor
  · rintro ⟨P, hP, m0, m1, h⟩
    have hin : ∀ k, inGrid P.u (u (i, k)) ∧ inGrid P.v (v (i, k)) := fun k => by
      obtain ⟨c, r, hc, hr, h1, h2, -⟩ := h k
      exact ⟨⟨⟨_, h1.1⟩, _, h1.2⟩, ⟨_, h2.1⟩, _, h2.2⟩
    have hb := modelRow_ok.2 ⟨P, hP, (interpolator_ok_iff _ _ _ _ _).2 ⟨⟨m0, m1⟩, hin, rfl⟩⟩
    rw [hb]
    congr 1
    funext k
    obtain ⟨c, r, hc, hr, h1, h2, h3⟩ := h k
    have h4 := (row_cell params u v dz wavel illum tel bf i P _ hP hb k c r hc hr h1 h2).1
    unfold Spec.isBilinear at h3 h4
    have hx : P.u ⟨c, by omega⟩ < P.u ⟨c + 1, hc⟩ := m0 (Fin.lt_def.2 (Nat.lt_succ_self c))
    have hy : P.v ⟨r, by omega⟩ < P.v ⟨r + 1, hr⟩ := m1 (Fin.lt_def.2 (Nat.lt_succ_self r))
    exact mul_right_cancel₀ (mul_pos (sub_pos.2 hx) (sub_pos.2 hy)).ne' (h4.trans h3.symm)
  · intro hb
    obtain ⟨P, hP, h2⟩ := modelRow_ok.1 hb
    obtain ⟨⟨m0, m1⟩, hin, -⟩ := (interpolator_ok_iff _ _ _ _ _).1 h2
    have hN : 2 ≤ N := (radiationPattern_ok hP).1
    refine ⟨P, hP, m0, m1, fun k => ?_⟩
    obtain ⟨c1, c2, c3⟩ := cell_spec hN P.u m0 (u (i, k)) (hin k).1
    obtain ⟨r1, r2, r3⟩ := cell_spec hN P.v m1 (v (i, k)) (hin k).2
    rw [gridAt_lt P.u c1] at c3
    rw [gridAt_lt P.u (by omega : cellIdx P.u (u (i, k)) < N)] at c2
    rw [gridAt_lt P.v r1] at r3
    rw [gridAt_lt P.v (by omega : cellIdx P.v (v (i, k)) < N)] at r2
    exact ⟨_, _, c1, r1, ⟨c2, c3⟩, ⟨r2, r3⟩,
      (row_cell params u v dz wavel illum tel bf i P b hP hb k _ _ c1 r1 ⟨c2, c3⟩ ⟨r2, r3⟩).1⟩

/-- A point outside the grid: `ValueError`. -/
theorem row_outside {N M : ℕ} (params : List ℝ) (u v : Fin 3 × Fin M → ℝ) (dz : Fin 3 → ℝ)
    (wavel : ℝ) (illum : Illum (Fin N × Fin N)) (tel : TelGeo (Fin N × Fin N)) (bf : ℝ) (i : Fin 3)
    (P : Pattern N)
    (hP : radiationPattern (params.take 5) (params.drop 5) (dz i) wavel illum tel bf = .ok P)
    (k : Fin M) (hout : (∀ c, u (i, k) < P.u c) ∨ (∀ c, P.u c < u (i, k)) ∨
      (∀ c, v (i, k) < P.v c) ∨ ∀ c, P.v c < v (i, k)) :
    modelRow params u v dz wavel illum tel bf i = .error .valueError := by
  unfold modelRow
  simp only [hP, bind, Except.bind]
  have hk : ¬ (inGrid P.u (u (i, k)) ∧ inGrid P.v (v (i, k))) := by
    rintro ⟨⟨⟨a, ha⟩, a', ha'⟩, ⟨b, hb⟩, b', hb'⟩
    rcases hout with h | h | h | h
    · exact absurd (h a) (not_lt.2 ha)
    · exact absurd (h a') (not_lt.2 ha')
    · exact absurd (h b) (not_lt.2 hb)
    · exact absurd (h b') (not_lt.2 hb')
  unfold interpolator
  by_cases h1 : StrictMono P.u ∧ StrictMono P.v
  · rw [if_neg (not_not.2 h1), if_pos ⟨k, hk⟩]
  · rw [if_pos h1]

/-! ## C42 -/

theorem flatten3_getElem {M : ℕ} (f : Fin 3 × Fin M → ℝ) (i : Fin 3) (k : Fin M) :
    (flatten3 f)[(i : ℕ) * M + k]? = some (f (i, k)) := by
  have h3 : List.finRange 3 = [0, 1, 2] := by decide
  unfold flatten3
  rw [h3]
  simp only [List.flatMap_cons, List.flatMap_nil, List.append_nil]
  have hk := k.isLt
  have hrow : ∀ j : Fin 3, ((List.finRange M).map fun k => f (j, k))[(k : ℕ)]? = some (f (j, k)) := by
    intro j
    simp
  have hl : ∀ j : Fin 3, ((List.finRange M).map fun k => f (j, k)).length = M := by simp
  match i with
  | 0 =>
    rw [List.getElem?_append_left (by rw [hl]; simp)]
    simp
  | 1 =>
    rw [List.getElem?_append_right (by rw [hl]; simp), hl]
    rw [List.getElem?_append_left (by rw [hl]; simp)]
    simp
  | 2 =>
    rw [List.getElem?_append_right (by rw [hl]; simp; omega), hl]
    rw [List.getElem?_append_right (by rw [hl]; simp; omega), hl]
    convert hrow 2 using 2
    simp
    omega

theorem flatten3_length {M : ℕ} (f : Fin 3 × Fin M → ℝ) : (flatten3 f).length = 3 * M := by
  have h3 : List.finRange 3 = [0, 1, 2] := by decide
  unfold flatten3
  rw [h3]
  simp
  ring

theorem normAxis1_empty (P : Fin 3 × Fin 0 → Fl) : ∃ e, normAxis1 P = .error e := by
  unfold normAxis1 seqArr
  have h : ¬ ∃ g : Fin 3 → Fl, ∀ q, arrMin (List.ofFn fun j : Fin 0 => P (q, j)) = .ok (g q) := by
    rintro ⟨g, hg⟩
    have := hg 0
    simp [arrMin] at this
  rw [dif_neg h]
  by_cases h2 : ∃ e q, arrMin (List.ofFn fun j : Fin 0 => P (q, j)) = .error e
  · rw [dif_pos h2]
    exact ⟨_, rfl⟩
  · rw [dif_neg h2]
    exact ⟨_, rfl⟩

/-- What a returned residual consists of. -/
theorem residualTrue_ok {N M : ℕ} {params : List ℝ} {beam : Fin 3 × Fin M → Fl}
    {u v : Fin 3 × Fin M → ℝ} {dz : Fin 3 → ℝ} {wavel : ℝ} {illum : Illum (Fin N × Fin N)}
    {tel : TelGeo (Fin N × Fin N)} {bf : ℝ} {r : List ℝ} :
    residualTrue params beam u v dz wavel illum tel bf = .ok r ↔
      ∃ b : Fin 3 → Fin M → ℝ, (∀ i, modelRow params u v dz wavel illum tel bf i = .ok (b i)) ∧
        ∃ nd nm, normAxis1 beam = .ok nd ∧ normAxis1 (fun q => Fl.fin (b q.1 q.2)) = .ok nm ∧
          r = flatten3 fun q => nd q - nm q := by
  unfold residualTrue
  have hfun : ∀ b0 b1 b2 : Fin M → ℝ, (fun q : Fin 3 × Fin M => Fl.fin ((![b0, b1, b2] q.1) q.2)) =
      fun q => Fl.fin (![b0, b1, b2] q.1 q.2) := fun _ _ _ => rfl
  constructor
  · intro h
    cases h0 : modelRow params u v dz wavel illum tel bf 0 with
    | error e => rw [h0] at h; cases h
    | ok b0 =>
      cases h1 : modelRow params u v dz wavel illum tel bf 1 with
      | error e => rw [h0, h1] at h; cases h
      | ok b1 =>
        cases h2 : modelRow params u v dz wavel illum tel bf 2 with
        | error e => rw [h0, h1, h2] at h; cases h
        | ok b2 =>
          rw [h0, h1, h2] at h
          simp only [bind, Except.bind] at h
          refine ⟨![b0, b1, b2], ?_, ?_⟩
          · intro i
            match i with
            | 0 => exact h0
            | 1 => exact h1
            | 2 => exact h2
          · cases hd : normAxis1 beam with
            | error e => rw [hd] at h; cases h
            | ok nd =>
              rw [hd] at h
              simp only at h
              cases hm : normAxis1 (fun q : Fin 3 × Fin M => Fl.fin (![b0, b1, b2] q.1 q.2)) with
              | error e => rw [hm] at h; cases h
              | ok nm =>
                rw [hm] at h
                exact ⟨nd, nm, rfl, rfl, (Except.ok.inj h).symm⟩
  · rintro ⟨b, hb, nd, nm, hd, hm, rfl⟩
    rw [hb 0, hb 1, hb 2, hd]
    simp only [bind, Except.bind]
    have : (fun q : Fin 3 × Fin M => Fl.fin (![b 0, b 1, b 2] q.1 q.2)) =
        fun q => Fl.fin (b q.1 q.2) := by
      funext q
      obtain ⟨i, k⟩ := q
      match i with
      | 0 => rfl
      | 1 => rfl
      | 2 => rfl
    rw [this, hm]
    rfl

/-- The residual: `3 M` values, map after map; entry `i M + k` is the difference of the
normalised data and the normalised model of map `i` at sample `k`; all values are in `[-1, 1]`. -/
theorem residual_layout {N M : ℕ} (params : List ℝ) (beam : Fin 3 × Fin M → Fl)
    (u v : Fin 3 × Fin M → ℝ) (dz : Fin 3 → ℝ) (wavel : ℝ) (illum : Illum (Fin N × Fin N))
    (tel : TelGeo (Fin N × Fin N)) (bf : ℝ) (r : List ℝ)
    (h : residualTrue params beam u v dz wavel illum tel bf = .ok r) :
    0 < M ∧ r.length = 3 * M ∧ (∀ x ∈ r, -1 ≤ x ∧ x ≤ 1) ∧
    ∀ i, ∃ b nd nm, modelRow params u v dz wavel illum tel bf i = .ok b ∧
      MathFn.norm (fun k => beam (i, k)) = .ok nd ∧ MathFn.norm (fun k => Fl.fin (b k)) = .ok nm ∧
      ∀ k : Fin M, r[(i : ℕ) * M + k]? = some (nd k - nm k) := by
  obtain ⟨b, hb, nd, nm, hd, hm, rfl⟩ := residualTrue_ok.1 h
  have hM : 0 < M := by
    rcases Nat.eq_zero_or_pos M with h0 | h0
    · subst h0
      obtain ⟨e, he⟩ := normAxis1_empty beam
      rw [he] at hd
      cases hd
    · exact h0
  obtain ⟨nd', hd1, hd2⟩ := C27_axis1 hM beam
  obtain ⟨nm', hm1, hm2⟩ := C27_axis1 hM (fun q => Fl.fin (b q.1 q.2))
  rw [hd] at hd1
  rw [hm] at hm1
  cases hd1
  cases hm1
  have : Nonempty (Fin M) := ⟨⟨0, hM⟩⟩
  refine ⟨hM, flatten3_length _, ?_, fun i => ⟨b i, _, _, hb i, hd2 i, hm2 i,
    fun k => flatten3_getElem _ i k⟩⟩
  intro x hx
  unfold flatten3 at hx
  simp only [List.mem_flatMap, List.mem_map] at hx
  obtain ⟨i, -, k, -, rfl⟩ := hx
  obtain ⟨r1, e1, h1⟩ := C27_range (fun k => beam (i, k))
  obtain ⟨r2, e2, h2⟩ := C27_range (fun k => Fl.fin (b i k))
  have e3 := hd2 i
  have e4 := hm2 i
  simp only at e4
  rw [e1] at e3
  rw [e2] at e4
  cases e3
  cases e4
  have := h1 k
  have := h2 k
  constructor <;> linarith

/-- **C42** the residual: `3 M` values, map after map; entry `i M + k` is the difference of the
normalised data and the normalised model of map `i` at sample `k`; all values are in `[-1, 1]`. -/
theorem C42_layout {N M : ℕ} (params : List ℝ) (beam : Fin 3 × Fin M → Fl)
    (u v : Fin 3 × Fin M → ℝ) (dz : Fin 3 → ℝ) (wavel : ℝ) (illum : Illum (Fin N × Fin N))
    (tel : TelGeo (Fin N × Fin N)) (bf : ℝ) (r : List ℝ)
    (h : residualTrue params beam u v dz wavel illum tel bf = .ok r) :
    0 < M ∧ r.length = 3 * M ∧ (∀ x ∈ r, -1 ≤ x ∧ x ≤ 1) ∧
    ∀ i, ∃ b nd nm, Spec.Sampled params u v dz wavel illum tel bf i b ∧
      MathFn.norm (fun k => beam (i, k)) = .ok nd ∧ MathFn.norm (fun k => Fl.fin (b k)) = .ok nm ∧
      ∀ k : Fin M, r[(i : ℕ) * M + k]? = some (nd k - nm k) := by
  simp only [sampled_iff]
  exact residual_layout params beam u v dz wavel illum tel bf r h

/-! ## C43 -/

/-- **C43** the model maps that the residual compares with the data: at a grid node the power pattern
there, column index from `u` and row index from `v`; inside any cell of the grid the bilinear mean of the
four corners, between the least and the largest of them.  Every sample is in such a cell. -/
theorem C43_model {N M : ℕ} (params : List ℝ) (beam : Fin 3 × Fin M → Fl) (u v : Fin 3 × Fin M → ℝ)
    (dz : Fin 3 → ℝ) (wavel : ℝ) (illum : Illum (Fin N × Fin N)) (tel : TelGeo (Fin N × Fin N)) (bf : ℝ)
    (res : List ℝ) (h : residualTrue params beam u v dz wavel illum tel bf = .ok res) (i : Fin 3) :
    ∃ (P : Pattern N) (b : Fin M → ℝ) (nd nm : Fin M → ℝ),
      radiationPattern (params.take 5) (params.drop 5) (dz i) wavel illum tel bf = .ok P ∧
      MathFn.norm (fun k => beam (i, k)) = .ok nd ∧ MathFn.norm (fun k => Fl.fin (b k)) = .ok nm ∧
      (∀ k : Fin M, res[(i : ℕ) * M + k]? = some (nd k - nm k)) ∧
      (∀ k row col, u (i, k) = P.u col → v (i, k) = P.v row → b k = ‖P.F (row, col)‖ ^ 2) ∧
      (∀ k, ∃ (c r : ℕ) (hc : c + 1 < N) (hr : r + 1 < N),
        (P.u ⟨c, by omega⟩ ≤ u (i, k) ∧ u (i, k) ≤ P.u ⟨c + 1, hc⟩) ∧
        (P.v ⟨r, by omega⟩ ≤ v (i, k) ∧ v (i, k) ≤ P.v ⟨r + 1, hr⟩)) ∧
      ∀ (k) (c r : ℕ) (hc : c + 1 < N) (hr : r + 1 < N),
        (P.u ⟨c, by omega⟩ ≤ u (i, k) ∧ u (i, k) ≤ P.u ⟨c + 1, hc⟩) →
        (P.v ⟨r, by omega⟩ ≤ v (i, k) ∧ v (i, k) ≤ P.v ⟨r + 1, hr⟩) →
        Spec.isBilinear (P.u ⟨c, by omega⟩) (P.u ⟨c + 1, hc⟩) (P.v ⟨r, by omega⟩) (P.v ⟨r + 1, hr⟩)
          (‖P.F (⟨r, by omega⟩, ⟨c, by omega⟩)‖ ^ 2) (‖P.F (⟨r, by omega⟩, ⟨c + 1, hc⟩)‖ ^ 2)
          (‖P.F (⟨r + 1, hr⟩, ⟨c, by omega⟩)‖ ^ 2) (‖P.F (⟨r + 1, hr⟩, ⟨c + 1, hc⟩)‖ ^ 2)
          (u (i, k)) (v (i, k)) (b k) ∧
        ∀ lo hi, (∀ a ∈ [r, r + 1], ∀ e ∈ [c, c + 1], ∀ (ha : a < N) (he : e < N),
          lo ≤ ‖P.F (⟨a, ha⟩, ⟨e, he⟩)‖ ^ 2 ∧ ‖P.F (⟨a, ha⟩, ⟨e, he⟩)‖ ^ 2 ≤ hi) → lo ≤ b k ∧ b k ≤ hi := by
  obtain ⟨-, -, -, hl⟩ := residual_layout params beam u v dz wavel illum tel bf res h
  obtain ⟨b, nd, nm, hb, hd, hm, hr⟩ := hl i
  obtain ⟨P, hP, -, -, hcell⟩ := sampled_iff.2 hb
  refine ⟨P, b, nd, nm, hP, hd, hm, hr, fun k row col hu hv =>
    row_node params u v dz wavel illum tel bf i P b hP hb k row col hu hv, fun k => ?_,
    fun k c r hc hr hu hv => row_cell params u v dz wavel illum tel bf i P b hP hb k c r hc hr hu hv⟩
  obtain ⟨c, r, hc, hr, h1, h2, -⟩ := hcell k
  exact ⟨c, r, hc, hr, h1, h2⟩

/-- **C43** a sample outside the grid: `ValueError`. -/
theorem C43_outside {N M : ℕ} (params : List ℝ) (beam : Fin 3 × Fin M → Fl) (u v : Fin 3 × Fin M → ℝ)
    (dz : Fin 3 → ℝ) (wavel : ℝ) (illum : Illum (Fin N × Fin N)) (tel : TelGeo (Fin N × Fin N)) (bf : ℝ)
    (P : Fin 3 → Pattern N)
    (hP : ∀ i, radiationPattern (params.take 5) (params.drop 5) (dz i) wavel illum tel bf = .ok (P i))
    (i : Fin 3) (k : Fin M) (hout : (∀ c, u (i, k) < (P i).u c) ∨ (∀ c, (P i).u c < u (i, k)) ∨
      (∀ c, v (i, k) < (P i).v c) ∨ ∀ c, (P i).v c < v (i, k)) :
    residualTrue params beam u v dz wavel illum tel bf = .error .valueError := by
  have hrow : ∀ j, (∃ b, modelRow params u v dz wavel illum tel bf j = .ok b) ∨
      modelRow params u v dz wavel illum tel bf j = .error .valueError := by
    intro j
    unfold modelRow
    simp only [hP, bind, Except.bind]
    unfold interpolator
    split_ifs <;> simp
  have hi := row_outside params u v dz wavel illum tel bf i (P i) (hP i) k hout
  unfold residualTrue
  rcases hrow 0 with ⟨b0, h0⟩ | h0
  · rcases hrow 1 with ⟨b1, h1⟩ | h1
    · rcases hrow 2 with ⟨b2, h2⟩ | h2
      · match i with
        | 0 => rw [h0] at hi; cases hi
        | 1 => rw [h1] at hi; cases hi
        | 2 => rw [h2] at hi; cases hi
      · simp only [h0, h1, h2, bind, Except.bind]
    · simp only [h0, h1, bind, Except.bind]
  · simp only [h0, bind, Except.bind]

/-! ## C41 -/

/-- Data that are, map by map, a positive affine calibration of the model beam: the
residual is identically zero. -/
theorem residual_affine {N M : ℕ} (hM : 0 < M) (params : List ℝ) (u v : Fin 3 × Fin M → ℝ)
    (dz : Fin 3 → ℝ) (wavel : ℝ) (illum : Illum (Fin N × Fin N))
    (tel : TelGeo (Fin N × Fin N)) (bf : ℝ) (b : Fin 3 → Fin M → ℝ)
    (hb : ∀ i, modelRow params u v dz wavel illum tel bf i = .ok (b i))
    (a c : Fin 3 → ℝ) (ha : ∀ i, 0 < a i) :
    residualTrue params (fun q => .fin (a q.1 * b q.1 q.2 + c q.1)) u v dz wavel illum tel bf =
      .ok (List.replicate (3 * M) 0) := by
  obtain ⟨nd, hd1, hd2⟩ := C27_axis1 hM (fun q : Fin 3 × Fin M => .fin (a q.1 * b q.1 q.2 + c q.1))
  obtain ⟨nm, hm1, hm2⟩ := C27_axis1 hM (fun q : Fin 3 × Fin M => Fl.fin (b q.1 q.2))
  have heq : ∀ i, (fun j => nd (i, j)) = fun j => nm (i, j) := by
    intro i
    have h1 := hd2 i
    have h2 := C28_affine (b i) (a i) (c i) (ha i)
    rw [h1] at h2
    exact Except.ok.inj (h2.trans (hm2 i))
  refine residualTrue_ok.2 ⟨b, hb, nd, nm, hd1, hm1, ?_⟩
  have : (fun q : Fin 3 × Fin M => nd q - nm q) = fun _ => 0 := by
    funext q
    have : nd q = nm q := congrFun (heq q.1) q.2
    rw [this, sub_self]
  rw [this]
  symm
  rw [List.eq_replicate_iff]
  refine ⟨flatten3_length _, ?_⟩
  intro x hx
  unfold flatten3 at hx
  simp only [List.mem_flatMap, List.mem_map] at hx
  obtain ⟨_, -, _, -, rfl⟩ := hx
  rfl

/-- **C41** data that are, map by map, a positive affine calibration of the model beam: the
residual is identically zero. -/
theorem C41_affine {N M : ℕ} (hM : 0 < M) (params : List ℝ) (u v : Fin 3 × Fin M → ℝ)
    (dz : Fin 3 → ℝ) (wavel : ℝ) (illum : Illum (Fin N × Fin N))
    (tel : TelGeo (Fin N × Fin N)) (bf : ℝ) (b : Fin 3 → Fin M → ℝ)
    (hb : ∀ i, Spec.Sampled params u v dz wavel illum tel bf i (b i))
    (a c : Fin 3 → ℝ) (ha : ∀ i, 0 < a i) :
    residualTrue params (fun q => .fin (a q.1 * b q.1 q.2 + c q.1)) u v dz wavel illum tel bf =
      .ok (List.replicate (3 * M) 0) :=
  residual_affine hM params u v dz wavel illum tel bf b (fun i => sampled_iff.1 (hb i)) a c ha

/-- **C41** in particular for data sampled at nodes of the model grid: sample `k` of map `i` being
the calibrated power at row `row i k` and column `col i k`, taken at the coordinates of that node. -/
theorem C41_nodes {N M : ℕ} (hM : 0 < M) (params : List ℝ) (dz : Fin 3 → ℝ) (wavel : ℝ)
    (illum : Illum (Fin N × Fin N)) (tel : TelGeo (Fin N × Fin N)) (bf : ℝ) (hpr : 0 < tel.pr)
    (hbf : 0 < bf) (hw : 0 < wavel) (P : Fin 3 → Pattern N)
    (hP : ∀ i, radiationPattern (params.take 5) (params.drop 5) (dz i) wavel illum tel bf = .ok (P i))
    (row col : Fin 3 → Fin M → Fin N) (a c : Fin 3 → ℝ) (ha : ∀ i, 0 < a i) :
    residualTrue params
      (fun q => .fin (a q.1 * ‖(P q.1).F (row q.1 q.2, col q.1 q.2)‖ ^ 2 + c q.1))
      (fun q => (P q.1).u (col q.1 q.2)) (fun q => (P q.1).v (row q.1 q.2)) dz wavel illum tel bf =
      .ok (List.replicate (3 * M) 0) := by
  have hax := fun i => C14_axes _ _ _ _ _ _ _ _ _ hpr hbf hw (hP i)
  refine residual_affine hM params _ _ dz wavel illum tel bf
    (fun i k => ‖(P i).F (row i k, col i k)‖ ^ 2) (fun i => ?_) a c ha
  rw [modelRow_ok]
  refine ⟨P i, hP i, ?_⟩
  rw [interpolator_ok_iff]
  have hmono : StrictMono (P i).u ∧ StrictMono (P i).v := by
    have h := hax i
    exact ⟨h.2.1, h.1 ▸ h.2.1⟩
  refine ⟨hmono, fun k => ⟨⟨⟨_, le_rfl⟩, _, le_rfl⟩, ⟨_, le_rfl⟩, _, le_rfl⟩, ?_⟩
  funext k
  have hN : 2 ≤ N := (radiationPattern_ok (hP i)).1
  rw [evalLinear_lin, lin_node hN _ hmono.1, lin_node hN _ hmono.2,
    valAt_lt _ (col i k).isLt (row i k).isLt]

/-! ## C44 -/

theorem bcast_two_ne (a b m : ℕ) (s : List ℕ) (ha1 : a ≠ 1) (hm1 : m ≠ 1) (ham : a ≠ m) :
    bcast (s ++ [a, b]) [m, 1] = .error .valueError := by
  unfold bcast
  have h : bcastRev (s ++ [a, b]).reverse [m, 1].reverse = none := by
    simp only [List.reverse_append, List.reverse_cons, List.reverse_nil, List.nil_append,
      List.cons_append]
    by_cases hb : b = 1
    · simp [bcastRev, hb, ha1, hm1, ham]
    · simp [bcastRev, hb, ha1, hm1, ham]
  rw [h]

/-- **C44** without interpolation the residual is never returned: `ValueError` as soon as the
patterns are, for data of any shape `(m, ...)`, `m ≥ 3`, and any resolution. -/
theorem C44_valueError {N : ℕ} (params : List ℝ) (m : ℕ) (hm : 3 ≤ m) (s : List ℕ)
    (dz : Fin 3 → ℝ) (wavel : ℝ) (illum : Illum (Fin N × Fin N)) (tel : TelGeo (Fin N × Fin N))
    (bf : ℝ) (P : Fin 3 → Pattern N)
    (hP : ∀ i, radiationPattern (params.take 5) (params.drop 5) (dz i) wavel illum tel bf = .ok (P i)) :
    residualTrueGrid params (m :: s) dz wavel illum tel bf = .error .valueError := by
  have hN : 2 ≤ N := (radiationPattern_ok (hP 0)).1
  unfold residualTrueGrid
  simp only [hP, bind, Except.bind, List.tail_cons]
  unfold assignShape
  by_cases hs : assignRev [N, N].reverse s.reverse = true
  · simp only [hs, if_true]
    obtain ⟨pre, rfl⟩ : ∃ pre, s = pre ++ [N, N] := by
      have hN1 : (N == 1) = false := by simp; omega
      match hr : s.reverse with
      | [] => rw [hr] at hs; simp [assignRev, hN1] at hs
      | [x] => rw [hr] at hs; simp [assignRev, hN1] at hs
      | x :: y :: t =>
        rw [hr] at hs
        simp [assignRev, hN1] at hs
        refine ⟨t.reverse, ?_⟩
        have := congrArg List.reverse hr
        rw [List.reverse_reverse] at this
        rw [this, ← hs.1, ← hs.2]
        simp
    have hnorm : normAxis1Shape (m :: (pre ++ [N, N])) = .error .valueError := by
      cases pre with
      | nil =>
        unfold normAxis1Shape
        simp only [List.nil_append]
        rw [if_neg (by omega)]
        have := bcast_two_ne N N (m * N) [m] (by omega) (by nlinarith) (by nlinarith)
        simp only [List.singleton_append] at this
        simp only [List.prod_cons, List.prod_nil, mul_one, this, bind, Except.bind]
      | cons a pre =>
        unfold normAxis1Shape
        simp only [List.cons_append]
        split_ifs with h0
        · rfl
        · have h1 : (m :: (pre ++ [N, N])).prod = m * pre.prod * N * N := by
            simp [mul_assoc]
          have hne : N ≠ m * pre.prod * N * N := by
            rcases Nat.eq_zero_or_pos pre.prod with hp | hp
            · rw [hp]; simp; omega
            · intro h
              have h3 : 1 * N < m * pre.prod * N * N := by
                have : 1 < m * pre.prod * N := by
                  have h4 : 3 * 1 * 2 ≤ m * pre.prod * N := by gcongr; omega
                  omega
                exact Nat.mul_lt_mul_of_pos_right this (by omega)
              omega
          have hne1 : m * pre.prod * N * N ≠ 1 := by
            rcases Nat.eq_zero_or_pos pre.prod with hp | hp
            · rw [hp]; simp
            · have h4 : 3 * 1 * 2 * 2 ≤ m * pre.prod * N * N := by gcongr; omega
              omega
          have := bcast_two_ne N N (m * pre.prod * N * N) (m :: a :: pre) (by omega) hne1 hne
          simp only [List.cons_append] at this
          rw [h1, this]
          rfl
    rw [hnorm]
  · simp only [if_neg hs]

/-! ## C17 and C18 for the residual -/

/-- **C17** the residual does not depend on the piston coefficient. -/
theorem C17_residual {N M : ℕ} (I Ks : List ℝ) (hI : I.length = 5) (k d : ℝ)
    (beam : Fin 3 × Fin M → Fl) (u v : Fin 3 × Fin M → ℝ) (dz : Fin 3 → ℝ) (wavel : ℝ)
    (illum : Illum (Fin N × Fin N)) (tel : TelGeo (Fin N × Fin N)) (bf : ℝ) (r : List ℝ)
    (h : residualTrue (I ++ k :: Ks) beam u v dz wavel illum tel bf = .ok r) :
    residualTrue (I ++ (k + d) :: Ks) beam u v dz wavel illum tel bf = .ok r := by
  obtain ⟨b, hb, nd, nm, hd, hm, rfl⟩ := residualTrue_ok.1 h
  refine residualTrue_ok.2 ⟨b, fun i => ?_, nd, nm, hd, hm, rfl⟩
  obtain ⟨P, h1, h2⟩ := modelRow_ok.1 (hb i)
  have t1 : ∀ c, (I ++ c :: Ks).take 5 = I := fun c => by rw [← hI, List.take_left']; rfl
  have t2 : ∀ c, (I ++ c :: Ks).drop 5 = c :: Ks := fun c => by rw [← hI, List.drop_left']; rfl
  rw [t1, t2] at h1
  obtain ⟨P', h3, h4, h5, h6⟩ := C17_pattern I Ks k d _ _ _ _ _ _ P h1
  rw [modelRow_ok, t1, t2]
  refine ⟨P', h3, ?_⟩
  rw [h4, h5, ← h2]
  congr 1
  funext q
  rw [(h6 _).2]

/-- **C18** the residual does not depend on the amplitude coefficient, as long as it is not zero;
`illum` is any illumination proportional to its first coefficient, such as the two of pyoof. -/
theorem C18_residual {N M : ℕ} (i s : ℝ) (hs : s ≠ 0) (rest Ks : List ℝ) (hr : rest.length = 4)
    (beam : Fin 3 × Fin M → Fl) (u v : Fin 3 × Fin M → ℝ) (dz : Fin 3 → ℝ) (wavel : ℝ)
    (illum : Illum (Fin N × Fin N)) (tel : TelGeo (Fin N × Fin N)) (bf : ℝ)
    (hI : ∀ (x y : Fin N × Fin N → ℝ) Ea, illum x y (i :: rest) tel.pr = .ok Ea →
      illum x y ((s * i) :: rest) tel.pr = .ok (fun q => s * Ea q)) (r : List ℝ)
    (h : residualTrue (i :: rest ++ Ks) beam u v dz wavel illum tel bf = .ok r) :
    residualTrue ((s * i) :: rest ++ Ks) beam u v dz wavel illum tel bf = .ok r := by
  have hM := (residual_layout _ _ _ _ _ _ _ _ _ _ h).1
  obtain ⟨b, hb, nd, nm, hd, hm, rfl⟩ := residualTrue_ok.1 h
  have hs2 : 0 < s ^ 2 := by positivity
  have hm' : normAxis1 (fun q : Fin 3 × Fin M => Fl.fin (s ^ 2 * b q.1 q.2)) = .ok nm := by
    obtain ⟨nm1, e1, e2⟩ := C27_axis1 hM (fun q : Fin 3 × Fin M => Fl.fin (b q.1 q.2))
    obtain ⟨nm2, e3, e4⟩ := C27_axis1 hM (fun q : Fin 3 × Fin M => Fl.fin (s ^ 2 * b q.1 q.2))
    rw [hm] at e1
    cases e1
    rw [e3]
    congr 1
    funext q
    have h1 := e4 q.1
    have h2 := C28_affine (b q.1) (s ^ 2) 0 hs2
    simp only [add_zero] at h2
    simp only [h2] at h1
    exact congrFun (Except.ok.inj (h1.symm.trans (e2 q.1))) q.2
  refine residualTrue_ok.2 ⟨fun i k => s ^ 2 * b i k, fun j => ?_, nd, nm, hd, hm', rfl⟩
  obtain ⟨P, h1, h2⟩ := modelRow_ok.1 (hb j)
  have t1 : ∀ c, (c :: rest ++ Ks).take 5 = c :: rest := fun c => by
    rw [show 5 = (c :: rest).length by simp [hr], List.take_left']; rfl
  have t2 : ∀ c, (c :: rest ++ Ks).drop 5 = Ks := fun c => by
    rw [show 5 = (c :: rest).length by simp [hr], List.drop_left']; rfl
  rw [t1, t2] at h1
  obtain ⟨P', h3, h4, h5, h6⟩ := C18_pattern _ _ _ s _ _ _ _ _ _ P hI h1
  rw [modelRow_ok, t1, t2]
  refine ⟨P', h3, ?_⟩
  rw [interpolator_ok_iff] at h2 ⊢
  rw [h4, h5]
  refine ⟨h2.1, h2.2.1, ?_⟩
  funext k
  show s ^ 2 * b j k = _
  rw [h2.2.2, ← evalLinear_smul]
  congr 1
  funext q
  rw [(h6 _).2]

/-- The illumination is proportional to its first coefficient, the others being `rest`. -/
def Spec.propAmp {ι : Type} (illum : Illum ι) (pr : ℝ) (rest : List ℝ) : Prop :=
  ∀ (x y : ι → ℝ) a s Ea, illum x y (a :: rest) pr = .ok Ea →
    illum x y ((s * a) :: rest) pr = .ok (fun q => s * Ea q)

/-- **C18** both illumination functions of pyoof are of this kind. -/
theorem C18_illum {ι : Type} (pr : ℝ) (rest : List ℝ) (hr : rest.length = 4) :
    Spec.propAmp (ι := ι) illumGauss pr rest ∧
    (pr ≠ 0 → 0 ≤ rest.getD 1 0 → Spec.propAmp (ι := ι) illumParabolic pr rest) := by
  refine ⟨fun x y a s Ea h => C18_gauss x y s a rest pr Ea (by omega) h, fun hpr hq x y a s Ea h => ?_⟩
  obtain ⟨c, q, x0, y0, rfl⟩ : ∃ c q x0 y0, rest = [c, q, x0, y0] := by
    match rest, hr with
    | [c, q, x0, y0], _ => exact ⟨c, q, x0, y0, rfl⟩
  obtain ⟨Ea', h1, h2⟩ := C18_parabolic x y s a c q x0 y0 pr hpr (by simpa using hq)
  rw [h] at h1
  cases h1
  exact h2

/-- **C18** so with the amplitude among the fitted parameters (position 0 not excluded) the
residual seen by the optimiser does not depend on the first fitted value, as long as it is not
zero. -/
theorem C18_residual_fitted {N M : ℕ} (cfg : Config) (S : List ℕ)
    (hex : cfg.excluded = S.map (fun e : ℕ => (e : ℤ))) (hS : S.Pairwise (· < ·)) (h0 : 0 ∉ S)
    (h7 : ∀ e ∈ S, e ≤ 7) (hf : cfg.fixed.length = 8) (nK : ℕ) (hK : 3 ≤ nK)
    (i j : ℝ) (hi : i ≠ 0) (hj : j ≠ 0) (xs : List ℝ) (hx : xs.length + 1 + S.length = 5 + nK)
    (beam : Fin 3 × Fin M → Fl) (u v : Fin 3 × Fin M → ℝ) (dz : Fin 3 → ℝ) (wavel : ℝ)
    (illum : Illum (Fin N × Fin N)) (tel : TelGeo (Fin N × Fin N)) (bf : ℝ)
    (hI : ∀ p, paramsComplete (i :: xs) nK cfg = .ok p →
      Spec.propAmp illum tel.pr ((p.drop 1).take 4)) (r : List ℝ)
    (h : Core.residual (i :: xs) nK beam u v dz wavel illum tel bf cfg = .ok r) :
    Core.residual (j :: xs) nK beam u v dz wavel illum tel bf cfg = .ok r := by
  have hnd : S.Nodup := hS.imp (fun h => ne_of_lt h)
  obtain ⟨p, hp1, hp2⟩ := dropAt_surj S (5 + nK) 0 (i :: xs) (by
    rw [countP_range' S hnd _ (fun e he => by have := h7 e he; omega)]
    simpa using hx)
  obtain ⟨p0, ps, rfl⟩ : ∃ p0 ps, p = p0 :: ps := by
    cases p with
    | nil => simp at hp1; omega
    | cons a l => exact ⟨a, l, rfl⟩
  simp only [dropAt, h0, if_false, List.cons.injEq] at hp2
  obtain ⟨rfl, hps⟩ := hp2
  have hc : ∀ a, paramsComplete (a :: xs) nK cfg =
      .ok (S.foldl (fun q e => q.set e (cfg.fixed.getD e 0)) (a :: ps)) := by
    intro a
    rw [← complete_delete cfg S hex hS h7 hf nK hK (a :: ps) (by simpa using hp1)]
    simp [dropAt, h0, hps]
  obtain ⟨t, ht⟩ : ∃ t : List ℝ, ∀ a, S.foldl (fun q e => q.set e (cfg.fixed.getD e 0)) (a :: ps) =
      a :: t := by
    clear hc hx hex hS h7 hnd hps
    induction S generalizing ps with
    | nil => exact ⟨ps, fun a => rfl⟩
    | cons e S ih =>
      obtain ⟨e', rfl⟩ : ∃ e', e = e' + 1 := by
        cases e with
        | zero => simp at h0
        | succ e' => exact ⟨e', rfl⟩
      simp only [List.foldl_cons, List.set_cons_succ]
      exact ih (by simp at h0; exact h0) (ps.set e' _) (by simpa using hp1)
  have htl : t.length = 4 + nK := by
    have := congrArg List.length (ht 0)
    rw [foldl_set_length] at this
    simp only [List.length_cons] at this hp1
    omega
  unfold Core.residual at h ⊢
  rw [hc, ht] at h ⊢
  simp only [bind, Except.bind] at h ⊢
  have e1 : ∀ a, a :: t = a :: t.take 4 ++ t.drop 4 := fun a => by simp
  rw [e1] at h ⊢
  have := C18_residual p0 (j / p0) (div_ne_zero hj hi) (t.take 4) (t.drop 4) (by simp; omega)
    beam u v dz wavel illum tel bf (fun x y Ea hE => by
      have h9 := hI (p0 :: t) (by rw [hc, ht])
      rw [List.drop_succ_cons, List.drop_zero] at h9
      exact h9 x y p0 (j / p0) Ea hE) r h
  rwa [div_mul_cancel₀ _ hi] at this

/-- **C18** hence a Jacobian made of difference quotients of the residual has a zero column, and
the covariance of the fit does not exist: `LinAlgError`. -/
theorem C18_singular {N M n : ℕ} (cfg : Config) (S : List ℕ)
    (hex : cfg.excluded = S.map (fun e : ℕ => (e : ℤ))) (hS : S.Pairwise (· < ·)) (h0 : 0 ∉ S)
    (h7 : ∀ e ∈ S, e ≤ 7) (hf : cfg.fixed.length = 8) (nK : ℕ) (hK : 3 ≤ nK)
    (i d : ℝ) (hi : i ≠ 0) (hd : i + d ≠ 0) (xs : List ℝ) (hx : xs.length + 1 + S.length = 5 + nK)
    (beam : Fin 3 × Fin M → Fl) (u v : Fin 3 × Fin M → ℝ) (dz : Fin 3 → ℝ) (wavel : ℝ)
    (illum : Illum (Fin N × Fin N)) (tel : TelGeo (Fin N × Fin N)) (bf : ℝ)
    (hI : ∀ p, paramsComplete (i :: xs) nK cfg = .ok p →
      Spec.propAmp illum tel.pr ((p.drop 1).take 4)) (r r' : List ℝ)
    (h : Core.residual (i :: xs) nK beam u v dz wavel illum tel bf cfg = .ok r)
    (h' : Core.residual ((i + d) :: xs) nK beam u v dz wavel illum tel bf cfg = .ok r')
    (res : Fin (3 * M) → ℝ) (J : Matrix (Fin (3 * M)) (Fin (n + 1)) ℝ) (nPars : ℕ)
    (hJ : ∀ k, J k 0 = (r'.getD k 0 - r.getD k 0) / d) :
    coMatrices res J nPars = .error .linAlgError := by
  have := C18_residual_fitted cfg S hex hS h0 h7 hf nK hK i (i + d) hi hd xs hx beam u v dz wavel
    illum tel bf hI r h
  rw [h'] at this
  cases this
  exact C31_zero_column res J nPars 0 fun k => by rw [hJ, sub_self, zero_div]

/-! ## The hypotheses are met -/

/-- A concrete observation: 64 x 64 model grid, five samples per map at nodes of the grid, Gaussian
illumination, manual geometry. -/
theorem residual_example : ∃ (P : Fin 3 → Pattern 64) (row col : Fin 3 → Fin 5 → Fin 64),
    (∃ i k, row i k ≠ col i k) ∧
    residualTrue (N := 64) [1, -14, 1.5, 0, 0, 0.1, 0.2, 0.3]
      (fun q => .fin (2 * ‖(P q.1).F (row q.1 q.2, col q.1 q.2)‖ ^ 2 + 7))
      (fun q => (P q.1).u (col q.1 q.2)) (fun q => (P q.1).v (row q.1 q.2)) ![-0.02, 0, 0.02] 0.009
      illumGauss (manualTel 50 3.25 1 20 30 387.4) 5 = .ok (List.replicate (3 * 5) 0) := by
  have hP : ∀ i : Fin 3, ∃ P : Pattern 64, radiationPattern
      (([1, -14, 1.5, 0, 0, 0.1, 0.2, 0.3] : List ℝ).take 5)
      (([1, -14, 1.5, 0, 0, 0.1, 0.2, 0.3] : List ℝ).drop 5) (![-0.02, 0, 0.02] i) 0.009
      illumGauss (manualTel 50 3.25 1 20 30 387.4) 5 = .ok P := by
    intro i
    rw [C14_ok_iff _ _ _ _ _ (by norm_num)]
    exact ⟨_, aperture_ok_iff.2 ⟨_, _, _, _, rfl, wavefront_ok _ _ _ 1 rfl, rfl, rfl, rfl⟩⟩
  choose P hP using hP
  let row : Fin 3 → Fin 5 → Fin 64 := fun _ k => ⟨k + 20, by omega⟩
  let col : Fin 3 → Fin 5 → Fin 64 := fun i k => ⟨2 * k + 10 + i, by omega⟩
  refine ⟨P, row, col, ⟨0, 0, by simp [row, col]⟩, ?_⟩
  exact C41_nodes (M := 5) (by norm_num) _ _ _ _ _ _ (by norm_num [manualTel]) (by norm_num)
    (by norm_num) P hP row col (fun _ => 2) (fun _ => 7) (fun _ => by norm_num)

example : ∃ (beam : Fin 3 × Fin 5 → Fl) (u v : Fin 3 × Fin 5 → ℝ) (r : List ℝ),
    residualTrue [3 * 1, -14, 1.5, 0, 0, 0.1, 0.2, 0.3] beam u v ![-0.02, 0, 0.02] 0.009
      (N := 64) illumGauss (manualTel 50 3.25 1 20 30 387.4) 5 = .ok r ∧
    residualTrue [1, -14, 1.5, 0, 0, 0.1 + 2, 0.2, 0.3] beam u v ![-0.02, 0, 0.02] 0.009
      (N := 64) illumGauss (manualTel 50 3.25 1 20 30 387.4) 5 = .ok r := by
  obtain ⟨P, row, col, -, h⟩ := residual_example
  exact ⟨_, _, _, _, C18_residual 1 3 (by norm_num) [-14, 1.5, 0, 0] [0.1, 0.2, 0.3] rfl _ _ _ _ _ _ _ _
    (fun x y Ea hE => C18_gauss x y 3 1 [-14, 1.5, 0, 0] _ Ea (by simp) hE) _ h,
    C17_residual [1, -14, 1.5, 0, 0] [0.2, 0.3] rfl 0.1 2 _ _ _ _ _ _ _ _ _ h⟩

end Verif.Props
