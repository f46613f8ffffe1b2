import Verif.Props.Lookup
import Verif.Props.Surface
import Mathlib.LinearAlgebra.Lagrange
import Mathlib.Analysis.Real.Pi.Bounds

/-!
# C74: between surface maps and the rings of actuators
-/

namespace Verif.Props

open Verif Verif.Np Verif.Actuator

/-! ## What is known about the splines -/

/-- A polynomial of degree at most five in each of two variables. -/
def Spec.Poly5 (p : ℝ → ℝ → ℝ) : Prop :=
  ∃ c : Fin 6 → Fin 6 → ℝ, ∀ x y, p x y = ∑ i, ∑ j, c i j * x ^ (i : ℕ) * y ^ (j : ℕ)

/-- What `RectBivariateSpline` with `kx = ky = 5` does for real values on a grid of at least 6 by 6
ascending coordinates: it is linear in the values, passes through them, and reproduces polynomials of
degree five within the grid. -/
def Spec.Quintic (spline : {m n : ℕ} → (Fin m → ℝ) → (Fin n → ℝ) → (Fin m × Fin n → Fl) →
    Py (ℝ → ℝ → Fl)) : Prop :=
  ∀ {m n : ℕ} (x : Fin m → ℝ) (y : Fin n → ℝ), 6 ≤ m → 6 ≤ n → StrictMono x → StrictMono y →
    ∃ L : (Fin m × Fin n → ℝ) →ₗ[ℝ] (ℝ → ℝ → ℝ),
      (∀ z, spline x y (fun q => .fin (z q)) = .ok fun u v => .fin (L z u v)) ∧
      (∀ z i j, L z (x i) (y j) = z (i, j)) ∧
      ∀ p, Spec.Poly5 p → ∀ u v, (∃ i i', x i ≤ u ∧ u ≤ x i') → (∃ j j', y j ≤ v ∧ v ≤ y j') →
        L (fun q => p (x q.1) (y q.2)) u v = p u v

/-- There is such a spline. -/
noncomputable def lagrangeSpline {m n : ℕ} (x : Fin m → ℝ) (y : Fin n → ℝ) (z : Fin m × Fin n → Fl) :
    Py (ℝ → ℝ → Fl) :=
  .ok fun u v => .fin (∑ i, ∑ j, (match z (i, j) with | .fin r => r | _ => 0) *
    (Lagrange.basis Finset.univ x i).eval u * (Lagrange.basis Finset.univ y j).eval v)

theorem basis_pow {m : ℕ} (x : Fin m → ℝ) (hx : Function.Injective x) (a : ℕ) (ha : a < m) (u : ℝ) :
    ∑ i, x i ^ a * (Lagrange.basis Finset.univ x i).eval u = u ^ a := by
  have h := Lagrange.eq_interpolate (s := Finset.univ) (v := x) (f := (Polynomial.X : Polynomial ℝ) ^ a)
    (hx.injOn) (by rw [Polynomial.degree_X_pow]; simpa using ha)
  have h2 := congrArg (Polynomial.eval u) h
  rw [Lagrange.interpolate_apply, Polynomial.eval_finset_sum] at h2
  simp only [Polynomial.eval_mul, Polynomial.eval_C, Polynomial.eval_pow, Polynomial.eval_X] at h2
  exact h2.symm

theorem sum_swap {m n k l : ℕ} (T : Fin m → Fin n → Fin k → Fin l → ℝ) :
    ∑ i, ∑ j, ∑ a, ∑ b, T i j a b = ∑ a, ∑ b, ∑ i, ∑ j, T i j a b := by
  calc _ = ∑ i, ∑ a, ∑ j, ∑ b, T i j a b := Finset.sum_congr rfl fun i _ => Finset.sum_comm
    _ = ∑ a, ∑ i, ∑ j, ∑ b, T i j a b := Finset.sum_comm
    _ = ∑ a, ∑ i, ∑ b, ∑ j, T i j a b := Finset.sum_congr rfl fun a _ => Finset.sum_congr rfl fun i _ =>
        Finset.sum_comm
    _ = _ := Finset.sum_congr rfl fun a _ => Finset.sum_comm

theorem lagrange_quintic : Spec.Quintic @lagrangeSpline := by
  intro m n x y hm hn hx hy
  refine ⟨{ toFun := fun z u v => ∑ i, ∑ j, z (i, j) * (Lagrange.basis Finset.univ x i).eval u *
      (Lagrange.basis Finset.univ y j).eval v, map_add' := ?_, map_smul' := ?_ }, fun z => rfl, ?_, ?_⟩
  · intro z z'
    funext u v
    simp only [Pi.add_apply, add_mul, Finset.sum_add_distrib]
  · intro c z
    funext u v
    simp only [Pi.smul_apply, smul_eq_mul, RingHom.id_apply, Finset.mul_sum]
    exact Finset.sum_congr rfl fun i _ => Finset.sum_congr rfl fun j _ => by ring
  · intro z i j
    show ∑ i', ∑ j', z (i', j') * (Lagrange.basis Finset.univ x i').eval (x i) *
      (Lagrange.basis Finset.univ y j').eval (y j) = _
    rw [Finset.sum_eq_single i, Finset.sum_eq_single j]
    · rw [Lagrange.eval_basis_self hx.injective.injOn (Finset.mem_univ _),
        Lagrange.eval_basis_self hy.injective.injOn (Finset.mem_univ _)]
      ring
    · intro j' _ hj
      rw [Lagrange.eval_basis_of_ne hj (Finset.mem_univ _), mul_zero]
    · simp
    · intro i' _ hi
      rw [Lagrange.eval_basis_of_ne hi (Finset.mem_univ _)]
      simp
    · simp
  · rintro p ⟨c, hc⟩ u v - -
    show ∑ i', ∑ j', p (x i') (y j') * (Lagrange.basis Finset.univ x i').eval u *
      (Lagrange.basis Finset.univ y j').eval v = _
    simp only [hc, Finset.sum_mul]
    calc _ = ∑ a : Fin 6, ∑ b : Fin 6, c a b * (∑ i', x i' ^ (a : ℕ) * (Lagrange.basis Finset.univ x i').eval u) *
          ∑ j', y j' ^ (b : ℕ) * (Lagrange.basis Finset.univ y j').eval v := by
          rw [sum_swap]
          refine Finset.sum_congr rfl fun a _ => Finset.sum_congr rfl fun b _ => ?_
          rw [mul_assoc, Finset.sum_mul_sum, Finset.mul_sum]
          refine Finset.sum_congr rfl fun i _ => ?_
          rw [Finset.mul_sum]
          exact Finset.sum_congr rfl fun j _ => by ring
      _ = _ := by
          refine Finset.sum_congr rfl fun a _ => Finset.sum_congr rfl fun b _ => ?_
          rw [basis_pow x hx.injective a (by omega), basis_pow y hy.injective b (by omega)]

/-! ## The table of the rings -/

/-- Coordinate `i` of `n` evenly spaced ones from `-r` to `r`. -/
noncomputable def Spec.axis (r : ℝ) (n : ℕ) (i : ℕ) : ℝ := -r + 2 * r * i / (n - 1)

/-- Column of actuator `j` of ring `i` in the table. -/
def Spec.act (i : Fin 4) (j : Fin 24) : Fin 96 := ⟨24 * i + j, by omega⟩

/-- Its position. -/
noncomputable def Spec.actPos (i : Fin 4) (j : Fin 24) : ℝ × ℝ :=
  (Spec.ring i * Real.cos (Spec.actAngle j), Spec.ring i * Real.sin (Spec.actAngle j))

theorem act_cases (k : Fin 96) : ∃ i j, Spec.act i j = k :=
  ⟨⟨k / 24, by omega⟩, ⟨k % 24, by omega⟩, Fin.ext (by simp only [Spec.act]; omega)⟩

theorem actX_get (i : Fin 4) (j : Fin 24) : Act.actX.getD (Spec.act i j) 0 = (Spec.actPos i j).1 := by
  have h := (C61_position.2.2 i j).1
  rw [List.getD_eq_getElem?_getD]
  exact congrArg (fun o => Option.getD o 0) h

theorem actY_get (i : Fin 4) (j : Fin 24) : Act.actY.getD (Spec.act i j) 0 = (Spec.actPos i j).2 := by
  have h := (C61_position.2.2 i j).2
  rw [List.getD_eq_getElem?_getD]
  exact congrArg (fun o => Option.getD o 0) h

theorem linspace_axis (r : ℝ) (n : ℕ) (i : Fin n) : linspace (-r) r n i = Spec.axis r n i := by
  unfold linspace Spec.axis
  ring

theorem axis_strict {r : ℝ} (hr : 0 < r) {n : ℕ} (hn : 2 ≤ n) {i j : ℕ} (h : i < j) :
    Spec.axis r n i < Spec.axis r n j := by
  unfold Spec.axis
  have hn' : (0 : ℝ) < (n : ℝ) - 1 := by
    have : (2 : ℝ) ≤ n := by exact_mod_cast hn
    linarith
  have : (i : ℝ) < j := by exact_mod_cast h
  have := mul_lt_mul_of_pos_left this (by linarith : 0 < 2 * r)
  have := (div_lt_div_iff_of_pos_right hn').2 this
  linarith

theorem poly_scale {p : ℝ → ℝ → ℝ} (hp : Spec.Poly5 p) (s t : ℝ) : Spec.Poly5 fun x y => p (s * x) (t * y) := by
  obtain ⟨c, hc⟩ := hp
  refine ⟨fun i j => c i j * s ^ (i : ℕ) * t ^ (j : ℕ), fun x y => ?_⟩
  show p (s * x) (t * y) = _
  rw [hc]
  exact Finset.sum_congr rfl fun i _ => Finset.sum_congr rfl fun j _ => by rw [mul_pow, mul_pow]; ring

/-- The row of the table for map `e`. -/
theorem ringRow_eq (a : Act) {d : ℕ} (f : Fin d → Fin a.resolution → Fin a.resolution → ℝ) (e : Fin d)
    (L : (Fin a.resolution × Fin a.resolution → ℝ) →ₗ[ℝ] (ℝ → ℝ → ℝ))
    (hL : ∀ z : Fin a.resolution × Fin a.resolution → ℝ,
      a.spline (fun i : Fin a.resolution => Spec.axis a.sr a.resolution i * 1000)
        (fun i : Fin a.resolution => Spec.axis a.sr a.resolution i * 1000) (fun q => .fin (z q)) =
        .ok fun u v => .fin (L z u v)) :
    a.ringRow ⟨a.resolution, a.resolution, fun q i => .fin (f i q.1 q.2)⟩ e = .ok fun k =>
      .fin (L (fun q => f e q.2 q.1) (Act.actX.getD k 0 * 1000) (Act.actY.getD k 0 * 1000)) := by
  unfold Act.ringRow
  rw [dif_pos e.2]
  rw [dif_pos ⟨rfl, rfl⟩]
  have := hL fun q => f e q.2 q.1
  simp only [linspace_axis]
  simp only [Fin.cast_eq_self, Fin.eta, this, bind, Except.bind, pure, Except.pure]

theorem interp_eq (a : Act) {d : ℕ} (A : Mat (Fin d → Fl)) (r : ℕ → Fin 96 → Fl)
    (h : ∀ j < 11, a.ringRow A j = .ok (r j)) : a.interp d A = .ok fun q => r q.1 q.2 := by
  unfold Act.interp
  rw [mapM_ok (List.range 11) (a.ringRow A) r fun j hj => h j (List.mem_range.1 hj)]
  simp only [bind, Except.bind, pure, Except.pure]
  congr 1
  funext q
  rw [List.getD_eq_getElem?_getD, List.getElem?_map, List.getElem?_range q.1.2]
  rfl

theorem axis_first (r : ℝ) (n : ℕ) : Spec.axis r n 0 = -r := by simp [Spec.axis]

theorem axis_last (r : ℝ) {n : ℕ} (hn : 2 ≤ n) : Spec.axis r n (n - 1) = r := by
  unfold Spec.axis
  have hn' : (n : ℝ) - 1 ≠ 0 := by
    have : (2 : ℝ) ≤ n := by exact_mod_cast hn
    linarith
  rw [Nat.cast_sub (by omega)]
  field_simp
  ring

theorem actPos_abs (i : Fin 4) (j : Fin 24) : |(Spec.actPos i j).1| ≤ 3.25 ∧ |(Spec.actPos i j).2| ≤ 3.25 := by
  have hr : 0 < Spec.ring i ∧ Spec.ring i ≤ 3.25 := by
    match i with
    | 0 => norm_num [Spec.ring]
    | 1 => norm_num [Spec.ring]
    | 2 => have : Spec.ring 2 = 1.88 := rfl
           rw [this]; norm_num
    | 3 => have : Spec.ring 3 = 1.21 := rfl
           rw [this]; norm_num
  unfold Spec.actPos
  simp only [abs_mul, abs_of_pos hr.1]
  have h1 := Real.abs_cos_le_one (Spec.actAngle j)
  have h2 := Real.abs_sin_le_one (Spec.actAngle j)
  constructor <;> nlinarith [abs_nonneg (Real.cos (Spec.actAngle j)), abs_nonneg (Real.sin (Spec.actAngle j))]

/-- **C74**. Displacement maps that are polynomials of degree at most five, with the columns along x and
the rows along y, are passed on to every actuator exactly: the table holds for each of the eleven
elevations the value of its map at the position of the actuator. -/
theorem C74_rings_polynomial (a : Act) (hs : Spec.Quintic a.spline) (hr : 6 ≤ a.resolution)
    (hsr : 3.25 ≤ a.sr) {d : ℕ} (hd : 11 ≤ d) (p : Fin d → ℝ → ℝ → ℝ) (hp : ∀ e, Spec.Poly5 (p e))
    (f : Fin d → Fin a.resolution → Fin a.resolution → ℝ)
    (hf : ∀ e row col, f e row col = p e (Spec.axis a.sr a.resolution col) (Spec.axis a.sr a.resolution row)) :
    ∃ t : Fin 11 × Fin 96 → Fl,
      a.interp d ⟨a.resolution, a.resolution, fun q i => .fin (f i q.1 q.2)⟩ = .ok t ∧
      ∀ e i j, t (e, Spec.act i j) = .fin (p (Fin.castLE hd e) (Spec.actPos i j).1 (Spec.actPos i j).2) := by
  have hmono : StrictMono fun i : Fin a.resolution => Spec.axis a.sr a.resolution i * 1000 := by
    intro i j h
    have := axis_strict (by linarith : 0 < a.sr) (by omega : 2 ≤ a.resolution) (Fin.lt_def.1 h)
    show _ * 1000 < _ * 1000
    linarith
  obtain ⟨L, h1, -, h3⟩ := hs _ _ hr hr hmono hmono
  refine ⟨_, interp_eq a _ (fun e k => if h : e < d then .fin (L (fun q => f ⟨e, h⟩ q.2 q.1)
    (Act.actX.getD k 0 * 1000) (Act.actY.getD k 0 * 1000)) else .fin 0) fun e he => ?_, fun e i j => ?_⟩
  · rw [ringRow_eq a f ⟨e, by omega⟩ L h1]
    congr 1
    funext k
    rw [dif_pos]
  · dsimp only
    rw [dif_pos (by omega), actX_get, actY_get]
    have hb : ∀ w : ℝ, |w| ≤ 3.25 → ∃ i i' : Fin a.resolution, Spec.axis a.sr a.resolution i * 1000 ≤ w * 1000 ∧
        w * 1000 ≤ Spec.axis a.sr a.resolution i' * 1000 := by
      intro w hw
      refine ⟨⟨0, by omega⟩, ⟨a.resolution - 1, by omega⟩, ?_, ?_⟩
      · rw [axis_first]; have := (abs_le.1 hw).1; linarith
      · rw [axis_last _ (by omega)]; have := (abs_le.1 hw).2; linarith
    have h := h3 _ (poly_scale (hp (Fin.castLE hd e)) (1 / 1000) (1 / 1000)) _ _ (hb _ (actPos_abs i j).1)
      (hb _ (actPos_abs i j).2)
    have e1 : ∀ w : ℝ, 1 / 1000 * (w * 1000) = w := fun w => by ring
    simp only [e1] at h
    rw [← h]
    have e2 : (fun q : Fin a.resolution × Fin a.resolution => f ⟨e, by omega⟩ q.2 q.1) = fun q =>
        p (Fin.castLE hd e) (Spec.axis a.sr a.resolution q.1) (Spec.axis a.sr a.resolution q.2) := by
      funext q
      exact hf _ _ _
    rw [e2]

/-- **C74**. The table is linear in the maps. -/
theorem C74_rings_linear (a : Act) (hs : Spec.Quintic a.spline) (hr : 6 ≤ a.resolution) (hsr : 0 < a.sr)
    {d : ℕ} (hd : 11 ≤ d) (f g : Fin d → Fin a.resolution → Fin a.resolution → ℝ) (c : ℝ) :
    ∃ F G : Fin 11 → Fin 96 → ℝ,
      a.interp d ⟨a.resolution, a.resolution, fun q i => .fin (f i q.1 q.2)⟩ = .ok (fun q => .fin (F q.1 q.2)) ∧
      a.interp d ⟨a.resolution, a.resolution, fun q i => .fin (g i q.1 q.2)⟩ = .ok (fun q => .fin (G q.1 q.2)) ∧
      a.interp d ⟨a.resolution, a.resolution, fun q i => .fin (f i q.1 q.2 + c * g i q.1 q.2)⟩ =
        .ok (fun q => .fin (F q.1 q.2 + c * G q.1 q.2)) := by
  have hmono : StrictMono fun i : Fin a.resolution => Spec.axis a.sr a.resolution i * 1000 := by
    intro i j h
    have := axis_strict hsr (by omega : 2 ≤ a.resolution) (Fin.lt_def.1 h)
    show _ * 1000 < _ * 1000
    linarith
  obtain ⟨L, h1, -, -⟩ := hs _ _ hr hr hmono hmono
  have key : ∀ f : Fin d → Fin a.resolution → Fin a.resolution → ℝ,
      a.interp d ⟨a.resolution, a.resolution, fun q i => .fin (f i q.1 q.2)⟩ = .ok fun q =>
        .fin (L (fun p => f (Fin.castLE hd q.1) p.2 p.1) (Act.actX.getD q.2 0 * 1000) (Act.actY.getD q.2 0 * 1000)) := by
    intro f
    rw [interp_eq a _ (fun e k => if h : e < d then .fin (L (fun q => f ⟨e, h⟩ q.2 q.1)
      (Act.actX.getD k 0 * 1000) (Act.actY.getD k 0 * 1000)) else .fin 0) fun e he => ?_]
    · congr 1
      funext q
      rw [dif_pos (by omega)]
      rfl
    · rw [ringRow_eq a f ⟨e, by omega⟩ L h1]
      congr 1
      funext k
      rw [dif_pos]
  refine ⟨fun e k => L (fun p => f (Fin.castLE hd e) p.2 p.1) (Act.actX.getD k 0 * 1000) (Act.actY.getD k 0 * 1000),
    fun e k => L (fun p => g (Fin.castLE hd e) p.2 p.1) (Act.actX.getD k 0 * 1000) (Act.actY.getD k 0 * 1000),
    key f, key g, ?_⟩
  refine (key fun i row col => f i row col + c * g i row col).trans ?_
  congr 1
  funext q
  congr 1
  have : (fun p : Fin a.resolution × Fin a.resolution => f (Fin.castLE hd q.1) p.2 p.1 +
      c * g (Fin.castLE hd q.1) p.2 p.1) = (fun p => f (Fin.castLE hd q.1) p.2 p.1) +
      c • fun p => g (Fin.castLE hd q.1) p.2 p.1 := rfl
  rw [this, map_add, map_smul]
  rfl

theorem mapM_stops {α β : Type} (f : α → Py β) (l1 l2 : List α) (x : α) (e : PyErr)
    (h : ∀ y ∈ l1, ∃ r, f y = .ok r) (hx : f x = .error e) : (l1 ++ x :: l2).mapM f = .error e := by
  induction l1 with
  | nil =>
    rw [List.nil_append, List.mapM_cons, hx]
    rfl
  | cons y l ih =>
    obtain ⟨r, hr⟩ := h y (by simp)
    rw [List.cons_append, List.mapM_cons, hr, ih fun z hz => h z (by simp [hz])]
    rfl

/-- **C74**. Fewer than eleven maps end in `IndexError`, maps of another shape in `ValueError`. -/
theorem C74_rings_errors (a : Act) (hs : Spec.Quintic a.spline) (hr : 6 ≤ a.resolution) (hsr : 0 < a.sr)
    {d m n : ℕ} (f : Fin d → Fin m → Fin n → ℝ) :
    (d < 11 → m = a.resolution ∧ n = a.resolution →
      a.interp d ⟨m, n, fun q i => .fin (f i q.1 q.2)⟩ = .error .indexError) ∧
    (0 < d → ¬ (m = a.resolution ∧ n = a.resolution) →
      a.interp d ⟨m, n, fun q i => .fin (f i q.1 q.2)⟩ = .error .valueError) := by
  constructor
  · rintro hd ⟨rfl, rfl⟩
    have hmono : StrictMono fun i : Fin a.resolution => Spec.axis a.sr a.resolution i * 1000 := by
      intro i j h
      have := axis_strict hsr (by omega : 2 ≤ a.resolution) (Fin.lt_def.1 h)
      show _ * 1000 < _ * 1000
      linarith
    obtain ⟨L, h1, -, -⟩ := hs _ _ hr hr hmono hmono
    unfold Act.interp
    have hsplit : List.range 11 = List.range d ++ d :: (List.range (10 - d)).map fun i => d + 1 + i := by
      rw [show 11 = d + (1 + (10 - d)) by omega, List.range_add, List.range_add]
      simp [List.range_succ]
    rw [hsplit, mapM_stops _ _ _ _ .indexError (fun y hy => ⟨_, ringRow_eq a f ⟨y, List.mem_range.1 hy⟩ L h1⟩)]
    · rfl
    · unfold Act.ringRow
      rw [dif_neg (by omega)]
  · intro hd hne
    unfold Act.interp
    rw [show List.range 11 = [] ++ 0 :: (List.range 10).map fun i => i + 1 from rfl,
      mapM_stops _ _ _ _ .valueError (by simp)]
    · rfl
    · unfold Act.ringRow
      rw [dif_pos hd, dif_neg fun h => hne ⟨h.2, h.1⟩]

/-! ## From a phase map to commands -/

/-- A point of the sub-reflector as seen in a phase map of the primary dish, which is turned by `k`
quarter turns. -/
noncomputable def Spec.turn (k : ℤ) (x y : ℝ) : ℝ × ℝ :=
  if k % 4 = 0 then (x, y) else if k % 4 = 1 then (y, -x) else if k % 4 = 2 then (-x, -y) else (-y, x)

theorem axis_rev (r : ℝ) {n : ℕ} (hn : 2 ≤ n) (i : Fin n) : Spec.axis r n i.rev = -Spec.axis r n i := by
  unfold Spec.axis
  have hn' : (n : ℝ) - 1 ≠ 0 := by
    have : (2 : ℝ) ≤ n := by exact_mod_cast hn
    linarith
  rw [Fin.val_rev, Nat.cast_sub (by omega)]
  field_simp
  push_cast
  ring

theorem poly_swap {p : ℝ → ℝ → ℝ} (hp : Spec.Poly5 p) : Spec.Poly5 fun x y => p y x := by
  obtain ⟨c, hc⟩ := hp
  refine ⟨fun i j => c j i, fun x y => ?_⟩
  show p y x = _
  rw [hc, Finset.sum_comm]
  exact Finset.sum_congr rfl fun i _ => Finset.sum_congr rfl fun j _ => by ring

theorem poly_smul {p : ℝ → ℝ → ℝ} (hp : Spec.Poly5 p) (s : ℝ) : Spec.Poly5 fun x y => p x y / s := by
  obtain ⟨c, hc⟩ := hp
  refine ⟨fun i j => c i j / s, fun x y => ?_⟩
  show p x y / s = _
  rw [hc, div_eq_mul_inv, Finset.sum_mul]
  exact Finset.sum_congr rfl fun i _ => by
    rw [Finset.sum_mul]
    exact Finset.sum_congr rfl fun j _ => by ring

theorem poly_turn {p : ℝ → ℝ → ℝ} (hp : Spec.Poly5 p) (k : ℤ) :
    Spec.Poly5 fun x y => p (Spec.turn k x y).1 (Spec.turn k x y).2 := by
  unfold Spec.turn
  split_ifs
  · exact hp
  · simpa using poly_scale (poly_swap (poly_scale hp 1 (-1))) 1 1
  · simpa using poly_scale hp (-1) (-1)
  · simpa using poly_swap (poly_scale hp (-1) 1)

/-- What `itransform` makes of a stack of real square maps: turned back, divided by the factor,
clipped. -/
theorem itransform_stack (a : Act) (hf : a.frequency ≠ 0) (hs : a.sign ≠ 0) (hn : a.nReflections ≠ 0)
    (hl : a.minAmp ≤ a.maxAmp) (hr : 2 ≤ a.resolution) {d : ℕ}
    (f : Fin d → Fin a.resolution → Fin a.resolution → ℝ) (φ : Fin d → ℝ → ℝ → ℝ)
    (hφ : ∀ e row col, f e row col = φ e (Spec.axis a.pr a.resolution col) (Spec.axis a.pr a.resolution row)) :
    a.itransform (Spec.stack f) = .ok (Spec.stack fun e (row col : Fin a.resolution) => max a.minAmp (min a.maxAmp
      (φ e (Spec.turn a.nrot (Spec.axis a.pr a.resolution col) (Spec.axis a.pr a.resolution row)).1
        (Spec.turn a.nrot (Spec.axis a.pr a.resolution col) (Spec.axis a.pr a.resolution row)).2 /
          Spec.factor a))) := by
  simp only [Act.itransform, Spec.stack, Mat.map]
  rw [tfactor_eq]
  have h : a.nrot % 4 = 0 ∨ a.nrot % 4 = 1 ∨ a.nrot % 4 = 2 ∨ a.nrot % 4 = 3 := by omega
  have hc : ∀ r : ℝ, a.clip (Fl.div (.fin r) (.fin (Spec.factor a))) =
      .fin (max a.minAmp (min a.maxAmp (r / Spec.factor a))) := by
    intro r
    rw [Fl.div_fin _ (factor_ne hf hs hn)]
    exact clip_clamp a hl _
  unfold Spec.turn
  rcases h with h | h | h | h
  · rw [rot90_0 _ (by omega)]
    simp only [h, hc, hφ, if_true]
  · rw [rot90_3 _ (by omega)]
    simp only [h, hc, hφ, axis_rev _ hr, if_true]
    norm_num
  · rw [rot90_2 _ (by omega)]
    simp only [h, hc, hφ, axis_rev _ hr, if_true]
    norm_num
  · rw [rot90_1 _ (by omega)]
    simp only [h, hc, hφ, axis_rev _ hr, if_true]
    norm_num

/-- **C74**. The commands for a phase map on the primary dish that is a polynomial of degree at most
five and asks for no displacement beyond the limits at the points of the grid: the file holds for
each actuator the phase at its place (the radius scaled to the primary dish, turned by `nrot`
quarter turns) divided by the phase per micrometre, clipped and rounded to a micrometre. -/
theorem C74_commands (a : Act) (hs : Spec.Quintic a.spline) (hr : 6 ≤ a.resolution) (hsr : 3.25 ≤ a.sr)
    (hf : a.frequency ≠ 0) (hsg : a.sign ≠ 0) (hn : a.nReflections ≠ 0) (ha : Spec.Writable a)
    {d : ℕ} (hd : 11 ≤ d) (φ : Fin d → ℝ → ℝ → ℝ) (hp : ∀ e, Spec.Poly5 (φ e))
    (f : Fin d → Fin a.resolution → Fin a.resolution → ℝ)
    (hφ : ∀ e row col, f e row col = φ e (Spec.axis a.pr a.resolution col) (Spec.axis a.pr a.resolution row))
    (hlim : ∀ e row col, a.minAmp ≤ f e row col / Spec.factor a ∧ f e row col / Spec.factor a ≤ a.maxAmp) :
    ∃ (sr : Arr) (v : Fin 11 → Fin 96 → ℤ), a.itransform (Spec.stack f) = .ok sr ∧
      a.writeLookup sr = (.ok (), some (Spec.lookupText v)) ∧
      ∀ e i j, Spec.Command a.minAmp a.maxAmp (.fin (φ (Fin.castLE hd e)
        (a.pr / a.sr * (Spec.turn a.nrot (Spec.actPos i j).1 (Spec.actPos i j).2).1)
        (a.pr / a.sr * (Spec.turn a.nrot (Spec.actPos i j).1 (Spec.actPos i j).2).2) / Spec.factor a))
        (v e (Spec.act i j)) := by
  have h0 : a.sr ≠ 0 := by intro h; rw [h] at hsr; norm_num at hsr
  have hpr : ∀ i : ℕ, Spec.axis a.pr a.resolution i = a.pr / a.sr * Spec.axis a.sr a.resolution i := by
    intro i
    unfold Spec.axis
    field_simp
  have hturn : ∀ c x y : ℝ, Spec.turn a.nrot (c * x) (c * y) =
      (c * (Spec.turn a.nrot x y).1, c * (Spec.turn a.nrot x y).2) := by
    intro c x y
    unfold Spec.turn
    split_ifs <;> simp
  have hit := itransform_stack a hf hsg hn ha.1 (by omega) f φ hφ
  have hmem : ∀ e (row col : Fin a.resolution), ∃ row' col' : Fin a.resolution,
      φ e (Spec.turn a.nrot (Spec.axis a.pr a.resolution col) (Spec.axis a.pr a.resolution row)).1
        (Spec.turn a.nrot (Spec.axis a.pr a.resolution col) (Spec.axis a.pr a.resolution row)).2 = f e row' col' := by
    intro e row col
    have h2 : 2 ≤ a.resolution := by omega
    unfold Spec.turn
    split_ifs
    · exact ⟨row, col, (hφ _ _ _).symm⟩
    · exact ⟨col.rev, row, by rw [hφ, axis_rev _ h2]⟩
    · exact ⟨row.rev, col.rev, by rw [hφ, axis_rev _ h2, axis_rev _ h2]⟩
    · exact ⟨col, row.rev, by rw [hφ, axis_rev _ h2]⟩
  have hun : ∀ e (row col : Fin a.resolution), max a.minAmp (min a.maxAmp
      (φ e (Spec.turn a.nrot (Spec.axis a.pr a.resolution col) (Spec.axis a.pr a.resolution row)).1
        (Spec.turn a.nrot (Spec.axis a.pr a.resolution col) (Spec.axis a.pr a.resolution row)).2 /
          Spec.factor a)) = φ e (a.pr / a.sr * (Spec.turn a.nrot (Spec.axis a.sr a.resolution col)
            (Spec.axis a.sr a.resolution row)).1) (a.pr / a.sr * (Spec.turn a.nrot (Spec.axis a.sr a.resolution col)
            (Spec.axis a.sr a.resolution row)).2) / Spec.factor a := by
    intro e row col
    obtain ⟨row', col', he⟩ := hmem e row col
    have hb := hlim e row' col'
    rw [← he] at hb
    rw [min_eq_right hb.2, max_eq_right hb.1, hpr, hpr, hturn]
  obtain ⟨t, ht, hv⟩ := C74_rings_polynomial a hs hr hsr hd
    (fun e x y => φ e (a.pr / a.sr * (Spec.turn a.nrot x y).1) (a.pr / a.sr * (Spec.turn a.nrot x y).2) / Spec.factor a)
    (fun e => poly_smul (poly_turn (poly_scale (hp e) _ _) _) _) _ (fun e row col => hun e row col)
  obtain ⟨v, w1, w2⟩ := C60_file a ha le_rfl fun j k => t (j, k)
  refine ⟨_, v, hit, ?_, fun e i j => ?_⟩
  · rw [← w1]
    simp only [Act.writeLookup, Spec.stack]
    rw [ht]
  · have := w2 e (Spec.act i j)
    rw [Fin.castLE_rfl] at this
    dsimp only [id] at this
    rw [hv] at this
    exact this

/-- An object with a spline that keeps the contract. -/
noncomputable def Spec.splined : Act :=
  { Spec.effelsberg with resolution := 6, spline := fun x y z => lagrangeSpline x y z }

theorem splined_quintic : Spec.Quintic Spec.splined.spline := lagrange_quintic

theorem splined_factor : Spec.factor Spec.splined < -0.001 := by
  have h := Real.pi_gt_three
  simp only [Spec.factor, Spec.splined, Spec.effelsberg]
  norm_num
  linarith

/-- A tilt of 0.01 radians per metre along x becomes a tilt of the actuators along y. -/
example : ∃ (f : Fin 11 → Fin 6 → Fin 6 → ℝ) (sr : Arr) (v : Fin 11 → Fin 96 → ℤ),
    f 0 0 0 = -0.5 ∧ f 0 0 5 = 0.5 ∧ f 0 5 0 = -0.5 ∧
    Spec.splined.itransform (Spec.stack f) = .ok sr ∧
    Spec.splined.writeLookup sr = (.ok (), some (Spec.lookupText v)) ∧
    ∀ e i j, Spec.Command (-5000) 5000 (.fin (0.01 * (50 / 3.25 * (Spec.actPos i j).2) / Spec.factor Spec.splined))
      (v e (Spec.act i j)) := by
  have hfac := splined_factor
  have hax : ∀ i : Fin 6, |Spec.axis 50 6 i| ≤ 50 := by
    intro i
    have : (i : ℝ) ≤ 5 := by exact_mod_cast (by omega : (i : ℕ) ≤ 5)
    rw [Spec.axis, abs_le]
    constructor <;> norm_num <;> linarith
  have hlim : ∀ r : ℝ, |r| ≤ 0.5 → -5000 ≤ r / Spec.factor Spec.splined ∧ r / Spec.factor Spec.splined ≤ 5000 := by
    intro r hr
    rw [abs_le] at hr
    rw [le_div_iff_of_neg (by linarith), div_le_iff_of_neg (by linarith)]
    constructor <;> linarith
  obtain ⟨sr, v, h1, h2, h3⟩ := C74_commands Spec.splined splined_quintic (by norm_num [Spec.splined])
    (by norm_num [Spec.splined, Spec.effelsberg]) (by norm_num [Spec.splined, Spec.effelsberg])
    (by norm_num [Spec.splined, Spec.effelsberg]) (by norm_num [Spec.splined, Spec.effelsberg])
    effelsberg_writable (d := 11) le_rfl (fun _ x _ => 0.01 * x)
    (fun _ => ⟨fun i j => if i = 1 ∧ j = 0 then 0.01 else 0, fun x y => by simp [Fin.sum_univ_succ]⟩)
    (fun _ _ col => 0.01 * Spec.axis 50 6 col) (fun e row col => rfl) (fun e row col => by
      refine hlim _ ?_
      rw [abs_mul]
      have := hax col
      norm_num
      linarith)
  refine ⟨_, sr, v, ?_, ?_, ?_, h1, h2, fun e i j => ?_⟩
  · norm_num [Spec.axis]
  · norm_num [Spec.axis]
  · norm_num [Spec.axis]
  · have := h3 e i j
    simpa [Spec.turn, Spec.splined, Spec.effelsberg] using this

/-! ## From a file to surface maps -/

theorem mesh_axis (a : Act) (q : Fin a.resolution × Fin a.resolution) :
    meshX (linspace (-a.sr) a.sr a.resolution) (linspace (-a.sr) a.sr a.resolution) q =
      Spec.axis a.sr a.resolution q.2 ∧
    meshY (linspace (-a.sr) a.sr a.resolution) (linspace (-a.sr) a.sr a.resolution) q =
      Spec.axis a.sr a.resolution q.1 := ⟨linspace_axis _ _ _, linspace_axis _ _ _⟩

/-- A point of the map is inside the sub-reflector. -/
def Spec.OnDish (a : Act) (q : Fin a.resolution × Fin a.resolution) : Prop :=
  Spec.axis a.sr a.resolution q.2 ^ 2 + Spec.axis a.sr a.resolution q.1 ^ 2 < a.sr ^ 2

/-- The points of the map, columns along x. -/
noncomputable def Spec.points (a : Act) (q : Fin a.resolution × Fin a.resolution) : ℝ × ℝ :=
  (Spec.axis a.sr a.resolution q.2, Spec.axis a.sr a.resolution q.1)

theorem readSurface_eq (a : Act) {n : ℕ} (hn : 0 < n) (v : Fin 11 → Fin n → ℤ) :
    a.readSurface (Spec.lookupText v) = (List.ofFn fun e => List.ofFn (v e)).mapM a.surfaceMap := by
  unfold Act.readSurface
  rw [fileRows_of hn v (before_rows v).1]
  have h3 := mapM_ok (List.range 11) (fun j => Act.intColumn (Act.tableRows (Spec.lookupRows v)) (j + 3))
    (fun j => if hj : j < 11 then List.ofFn fun k : Fin n => v ⟨j, hj⟩ k else []) (by
      intro j hj
      have hj := List.mem_range.1 hj
      rw [column_eq v j hj, dif_pos hj])
  simp only [bind, Except.bind, h3]
  congr 1

theorem surfaceMap_eq (a : Act) (l : List ℤ) (hl : l.length = 96) (m : Act.Map a) :
    a.surfaceMap l = .ok m ↔ ∃ g, a.griddata a.resolution Act.actX Act.actY l (Spec.points a) = .ok g ∧
      m = fun q => open Classical in if Spec.OnDish a q then Act.nanToNum (g q) else .fin 0 := by
  unfold Act.surfaceMap
  have hp : (fun q => (meshX (linspace (-a.sr) a.sr a.resolution) (linspace (-a.sr) a.sr a.resolution) q,
      meshY (linspace (-a.sr) a.sr a.resolution) (linspace (-a.sr) a.sr a.resolution) q)) = Spec.points a := by
    funext q
    rw [(mesh_axis a q).1, (mesh_axis a q).2]
    rfl
  simp only [(mesh_axis a _).1, (mesh_axis a _).2] at hp
  simp only [ne_eq, hl, not_true, if_false, pure_bind, (mesh_axis a _).1, (mesh_axis a _).2, hp]
  cases hg : a.griddata a.resolution Act.actX Act.actY l (Spec.points a) with
  | error e => simp [bind, Except.bind]
  | ok g =>
    simp only [bind, Except.bind, pure, Except.pure, Except.ok.injEq, exists_eq_left']
    have : (fun q => open Classical in if a.sr ^ 2 ≤ Spec.axis a.sr a.resolution q.2 ^ 2 +
        Spec.axis a.sr a.resolution q.1 ^ 2 then Fl.fin 0 else Act.nanToNum (g q)) =
        fun q => open Classical in if Spec.OnDish a q then Act.nanToNum (g q) else .fin 0 := by
      funext q
      unfold Spec.OnDish
      by_cases h : a.sr ^ 2 ≤ Spec.axis a.sr a.resolution q.2 ^ 2 + Spec.axis a.sr a.resolution q.1 ^ 2
      · rw [if_pos h, if_neg (not_lt.2 h)]
      · rw [if_neg h, if_pos (not_le.1 h)]
    rw [this]
    exact eq_comm

theorem mapM_split {α β : Type} (f : α → Py β) (l : List α) (r : List β) (h : l.mapM f = .ok r) :
    r.length = l.length ∧ ∀ (k : ℕ) x y, l[k]? = some x → r[k]? = some y → f x = .ok y := by
  induction l generalizing r with
  | nil => cases h; simp
  | cons a l ih =>
    rw [List.mapM_cons] at h
    cases hf : f a with
    | error e => rw [hf] at h; cases h
    | ok b =>
      rw [hf] at h
      cases hl : l.mapM f with
      | error e => rw [hl] at h; cases h
      | ok r' =>
        rw [hl] at h
        cases h
        obtain ⟨h1, h2⟩ := ih _ hl
        refine ⟨by simp [h1], fun k x y hx hy => ?_⟩
        cases k with
        | zero => simp at hx hy; rw [← hx, ← hy]; exact hf
        | succ k => exact h2 k x y (by simpa using hx) (by simpa using hy)

/-- **C74**. `read_lookup(True)` of a complete file: eleven maps, map `e` from the numbers of elevation
`e` alone, interpolated between the 96 positions at the points of the grid (columns along x).  All
entries are numbers; a point on or outside the rim of the sub-reflector is 0, and so is one the
interpolation knows nothing about. -/
theorem C74_read (a : Act) (v : Fin 11 → Fin 96 → ℤ) :
    (∀ maps, a.readSurface (Spec.lookupText v) = .ok maps → maps.length = 11 ∧
      ∀ (e : Fin 11) m, maps[(e : ℕ)]? = some m → ∃ g,
        a.griddata a.resolution Act.actX Act.actY (List.ofFn (v e)) (Spec.points a) = .ok g ∧
        ∀ q, (∃ r : ℝ, m q = .fin r) ∧ (¬ Spec.OnDish a q → m q = .fin 0) ∧
          (g q = .nan → m q = .fin 0) ∧ (∀ r : ℝ, Spec.OnDish a q → g q = .fin r → m q = .fin r)) ∧
    ((∀ e, ∃ g, a.griddata a.resolution Act.actX Act.actY (List.ofFn (v e)) (Spec.points a) = .ok g) →
      ∃ maps, a.readSurface (Spec.lookupText v) = .ok maps) := by
  rw [readSurface_eq a (by norm_num) v]
  constructor
  · intro maps h
    obtain ⟨h1, h2⟩ := mapM_split _ _ _ h
    refine ⟨by simpa using h1, fun e m hm => ?_⟩
    obtain ⟨g, hg, rfl⟩ := (surfaceMap_eq a _ List.length_ofFn m).1 (h2 e (List.ofFn (v e)) m (by rw [List.getElem?_ofFn, dif_pos e.2]) hm)
    refine ⟨g, hg, fun q => ⟨?_, fun h => if_neg h, fun h => ?_, fun r hi h => ?_⟩⟩
    · dsimp only
      split_ifs
      · cases g q with
        | nan => exact ⟨_, rfl⟩
        | pinf => exact ⟨_, rfl⟩
        | ninf => exact ⟨_, rfl⟩
        | fin r => exact ⟨_, rfl⟩
      · exact ⟨_, rfl⟩
    · dsimp only
      rw [h]
      split_ifs <;> rfl
    · dsimp only
      rw [if_pos hi, h]
      rfl
  · intro h
    choose g hg using h
    rw [List.ofFn_eq_map, List.mapM_map]
    exact ⟨_, mapM_ok _ _ (fun e q => open Classical in if Spec.OnDish a q then Act.nanToNum (g e q) else .fin 0)
      fun e _ => (surfaceMap_eq a _ List.length_ofFn _).2 ⟨_, hg e, rfl⟩⟩

/-- A file with the same number everywhere and an interpolation that is constant where it is defined:
the map is that number inside and 0 on the rim. -/
example : let a : Act := { Spec.effelsberg with resolution := 3, griddata := fun _ _ _ l _ => .ok fun _ => .fin (l.headD 0 : ℤ) }
    ∃ (maps : List a.Map) (m : a.Map), a.readSurface (Spec.lookupText fun (e : Fin 11) (_ : Fin 96) => ((e : ℕ) : ℤ)) = .ok maps ∧
      maps[4]? = some m ∧ m ((1 : Fin 3), (1 : Fin 3)) = .fin 4 ∧ m ((1 : Fin 3), (2 : Fin 3)) = .fin 0 := by
  intro a
  obtain ⟨h1, h2⟩ := C74_read a fun e _ => ((e : ℕ) : ℤ)
  obtain ⟨maps, hm⟩ := h2 fun e => ⟨_, rfl⟩
  obtain ⟨hl, h3⟩ := h1 maps hm
  obtain ⟨m, h4⟩ : ∃ m, maps[4]? = some m := ⟨maps[4], List.getElem?_eq_getElem (by omega)⟩
  obtain ⟨g, hg, h5⟩ := h3 4 m h4
  cases hg
  refine ⟨maps, m, hm, h4, ?_, ?_⟩
  · refine (h5 _).2.2.2 4 ?_ ?_
    · show Spec.axis 3.25 3 1 ^ 2 + Spec.axis 3.25 3 1 ^ 2 < (3.25 : ℝ) ^ 2
      norm_num [Spec.axis]
    · simp [List.ofFn_succ]
  · refine (h5 _).2.1 ?_
    show ¬ (Spec.axis 3.25 3 2 ^ 2 + Spec.axis 3.25 3 1 ^ 2 < (3.25 : ℝ) ^ 2)
    norm_num [Spec.axis]

/-- **C74**. A file with another number of actuators than 96 is refused, also one with a single
actuator, which `read_lookup(False)` takes for all of them. -/
theorem C74_read_rows (a : Act) {n : ℕ} (hn : n ≠ 96) (v : Fin 11 → Fin n → ℤ) :
    a.readSurface (Spec.lookupText v) = .error (if n = 0 then .fileNotFoundError else .valueError) := by
  rcases Nat.eq_zero_or_pos n with rfl | h0
  · unfold Act.readSurface Act.fileRows
    rw [(before_rows v).1]
    rfl
  · rw [if_neg h0.ne', readSurface_eq a h0 v, List.ofFn_succ]
    refine mapM_stops a.surfaceMap [] _ _ _ (by simp) ?_
    unfold Act.surfaceMap
    simp [hn]
    rfl

/-- **C74**. The phase errors of the present table: from them `itransform` gets back the maps of
`read_lookup(True)`, clipped to the limits. -/
theorem C74_lookup_phase (a : Act) (hf : a.frequency ≠ 0) (hs : a.sign ≠ 0) (hn : a.nReflections ≠ 0)
    (hl : a.minAmp ≤ a.maxAmp) (s : Str) (maps : List a.Map) (h : a.readSurface s = .ok maps) :
    ∃ P, a.phaseLookup s = .ok P ∧
      a.itransform P = .ok (Spec.each (Spec.clamp a.minAmp a.maxAmp) (a.stackOf maps)) := by
  have hi := C58_inverse a hf hs hn hl (a.stackOf maps) (fun n f => by unfold Act.stackOf; exact nofun)
  cases ht : a.transform (a.stackOf maps) with
  | error e => rw [ht] at hi; cases hi
  | ok P =>
    rw [ht] at hi
    refine ⟨P, ?_, hi⟩
    unfold Act.phaseLookup
    rw [h]
    exact ht

end Verif.Props
