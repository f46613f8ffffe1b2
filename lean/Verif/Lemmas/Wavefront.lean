import Verif.Model.Aperture
import Verif.Lemmas.ZernikeBound
import Verif.Lemmas.ZernikeOrth

/-! # Helper lemmas for `wavefront` and `phase` -/

namespace Verif.Aperture

open Verif Verif.Np Verif.Zernike Finset

theorem seqArr_ok {ι α : Type} (f : ι → Py α) (g : ι → α) (h : ∀ q, f q = .ok (g q)) :
    seqArr f = .ok g := by
  have hex : ∃ g : ι → α, ∀ q, f q = .ok (g q) := ⟨g, h⟩
  unfold seqArr
  rw [dif_pos hex]
  congr 1
  ext q
  have h1 := hex.choose_spec q
  rw [h q] at h1
  injection h1 with h1
  exact h1.symm

/-- Index of the first entry of row `i`. -/
def tri (i : ℕ) : ℕ := i * (i + 1) / 2

theorem tri_succ (i : ℕ) : tri (i + 1) = tri i + (i + 1) := by
  unfold tri
  rw [show (i + 1) * (i + 1 + 1) = i * (i + 1) + (i + 1) * 2 by ring,
    Nat.add_mul_div_right _ _ (by norm_num)]

theorem tri_mono {i j : ℕ} (h : i ≤ j) : tri i ≤ tri j := by
  unfold tri
  gcongr

def row (i : ℕ) : List (ℤ × ℤ) := (List.range (i + 1)).map fun k : ℕ => ((i : ℤ), -(i : ℤ) + 2 * (k : ℤ))

theorem pyRange_one (n : ℕ) : pyRange 0 ((n : ℤ) + 1) 1 = (List.range (n + 1)).map (fun k : ℕ => (k : ℤ)) := by
  unfold pyRange
  have : (((n : ℤ) + 1 - 0 + 1 - 1) / 1).toNat = n + 1 := by omega
  rw [this]
  simp

theorem pyRange_two (i : ℕ) : (pyRange (-(i : ℤ)) ((i : ℤ) + 1) 2).map (fun j => ((i : ℤ), j)) = row i := by
  unfold pyRange row
  have : (((i : ℤ) + 1 - -(i : ℤ) + 2 - 1) / 2).toNat = i + 1 := by omega
  rw [this, List.map_map]
  rfl

theorem nlList_eq (n : ℕ) : nlList n = (List.range (n + 1)).flatMap row := by
  unfold nlList
  rw [pyRange_one, List.flatMap_map]
  congr 1
  ext1 i
  exact pyRange_two i

theorem nlList_succ (n : ℕ) : nlList ((n : ℤ) + 1) = nlList n ++ row (n + 1) := by
  have := nlList_eq (n + 1)
  push_cast at this
  rw [this, nlList_eq, List.range_succ, List.flatMap_append]
  simp

theorem nlList_length (n : ℕ) : (nlList n).length = tri (n + 1) := by
  induction n with
  | zero => rfl
  | succ n ih =>
    push_cast
    rw [nlList_succ, List.length_append, ih, tri_succ (n + 1)]
    simp [row]

theorem nlList_neg : nlList (-1) = [] := by
  simp [nlList, pyRange]

theorem nlList_get (n i k : ℕ) (hi : i ≤ n) (hk : k ≤ i) :
    (nlList n)[tri i + k]? = some ((i : ℤ), -(i : ℤ) + 2 * (k : ℤ)) := by
  induction n with
  | zero =>
    have hi0 : i = 0 := by omega
    subst hi0
    have hk0 : k = 0 := by omega
    subst hk0
    rfl
  | succ n ih =>
    push_cast
    rw [nlList_succ]
    rcases Nat.lt_or_ge n i with h | h
    · have hin : i = n + 1 := by omega
      subst hin
      rw [List.getElem?_append_right (by rw [nlList_length]; omega), nlList_length]
      have : tri (n + 1) + k - tri (n + 1) = k := by omega
      rw [this]
      simp [row, hk, Nat.lt_succ_iff]
    · rw [List.getElem?_append_left]
      · exact ih h
      · rw [nlList_length]
        have h1 := tri_mono (show i + 1 ≤ n + 1 by omega)
        have h2 := tri_succ i
        omega

theorem sum_tri (f : ℕ → ℝ) (n : ℕ) :
    ∑ x ∈ range (tri (n + 1)), f x = ∑ i ∈ range (n + 1), ∑ k ∈ range (i + 1), f (tri i + k) := by
  induction n with
  | zero => simp [tri]
  | succ n ih =>
    rw [tri_succ (n + 1), Finset.sum_range_add, ih]
    exact (Finset.sum_range_succ (fun i => ∑ k ∈ range (i + 1), f (tri i + k)) (n + 1)).symm

theorem exists_tri (s : ℕ) (hs : 0 < s) : ∃ n, tri (n + 1) ≤ s ∧ s < tri (n + 2) := by
  have key : ∀ m, s < tri (m + 1) → ∃ n, tri (n + 1) ≤ s ∧ s < tri (n + 2) := by
    intro m
    induction m with
    | zero => intro h; simp [tri] at h; omega
    | succ m ih =>
      intro h
      rcases Nat.lt_or_ge s (tri (m + 1)) with h1 | h1
      · exact ih h1
      · exact ⟨m, h1, h⟩
  apply key s
  have : tri (s + 1) = tri s + (s + 1) := tri_succ s
  omega

theorem two_tri (n : ℕ) : 2 * tri n = n * (n + 1) := by
  unfold tri
  exact Nat.mul_div_cancel' (Nat.even_mul_succ_self n).two_dvd

theorem orderOf_eq (s n : ℕ) (h1 : tri (n + 1) ≤ s) (h2 : s < tri (n + 2)) : orderOf s = n := by
  unfold orderOf pyInt
  have e1 : 2 * tri (n + 1) = (n + 1) * (n + 2) := two_tri (n + 1)
  have e2 : 2 * tri (n + 2) = (n + 2) * (n + 3) := two_tri (n + 2)
  have lo : ((2 * n + 3 : ℕ) : ℝ) ≤ Real.sqrt (1 + 8 * (s : ℝ)) := by
    apply Real.le_sqrt_of_sq_le
    have : (2 * n + 3) ^ 2 ≤ 1 + 8 * s := by nlinarith
    exact_mod_cast this
  have hi : Real.sqrt (1 + 8 * (s : ℝ)) < ((2 * n + 5 : ℕ) : ℝ) := by
    rw [Real.sqrt_lt' (by positivity)]
    have : 1 + 8 * s < (2 * n + 5) ^ 2 := by nlinarith
    exact_mod_cast this
  push_cast at lo hi
  have hn : (0 : ℝ) ≤ n := by positivity
  rw [if_pos (by linarith), Int.floor_eq_iff]
  push_cast
  constructor <;> linarith

theorem orderOf_zero : orderOf 0 = -1 := by
  unfold orderOf pyInt
  norm_num

/-- The value of `U` where it does not raise. -/
noncomputable def Uv (n l : ℤ) (rho theta : ℝ) : ℝ :=
  match U (.int n) (.int l) rho theta with
  | .ok v => v
  | .error _ => 0

theorem Uv_of_ok {n l : ℤ} {rho theta v : ℝ} (h : U (.int n) (.int l) rho theta = .ok v) :
    Uv n l rho theta = v := by
  unfold Uv; rw [h]

theorem row_allowed (i k : ℕ) (hk : k ≤ i) : Spec.Allowed i (-(i : ℤ) + 2 * (k : ℤ)) := by
  constructor
  · rw [abs_le]; constructor <;> omega
  · exact ⟨(i : ℤ) - k, by ring⟩

theorem U_ok (i k : ℕ) (hk : k ≤ i) (rho theta : ℝ) :
    U (.int i) (.int (-(i : ℤ) + 2 * (k : ℤ))) rho theta =
      .ok (Uv i (-(i : ℤ) + 2 * (k : ℤ)) rho theta) := by
  obtain ⟨a, b, -, -, -, h⟩ := U_value i _ (row_allowed i k hk)
  rw [Uv_of_ok (h rho theta)]
  exact h rho theta

/-- The value of the wavefront at a point: a double sum over order and position in the row. -/
noncomputable def wfVal (n : ℕ) (K : List ℝ) (rho theta : ℝ) : ℝ :=
  ∑ i ∈ range (n + 1), ∑ k ∈ range (i + 1),
    K.getD (tri i + k) 0 * Uv i (-(i : ℤ) + 2 * (k : ℤ)) rho theta

theorem exists_row_pos (n x : ℕ) (hx : x < tri (n + 1)) : ∃ i k, i ≤ n ∧ k ≤ i ∧ x = tri i + k := by
  induction n with
  | zero => simp [tri] at hx; exact ⟨0, 0, le_rfl, le_rfl, by simp [tri, hx]⟩
  | succ n ih =>
    rcases Nat.lt_or_ge x (tri (n + 1)) with h | h
    · obtain ⟨i, k, hi, hk, hx⟩ := ih h
      exact ⟨i, k, by omega, hk, hx⟩
    · rw [tri_succ (n + 1)] at hx
      exact ⟨n + 1, x - tri (n + 1), le_rfl, by omega, by omega⟩

theorem wfTerm_ok {ι : Type} (rho theta : ι → ℝ) (K : List ℝ) (n x : ℕ) (hx : x < tri (n + 1))
    (hK : x < K.length) :
    wfTerm rho theta K (nlList n) x = .ok (fun q => K.getD x 0 *
      Uv ((nlList n).getD x (0, 0)).1 ((nlList n).getD x (0, 0)).2 (rho q) (theta q)) := by
  obtain ⟨i, k, hi, hk, rfl⟩ := exists_row_pos n x hx
  have hget := nlList_get n i k hi hk
  have h1 : pyIdx K (tri i + k) = .ok (K.getD (tri i + k) 0) := by
    simp [pyIdx, List.getElem?_eq_getElem hK]
  have h2 : pyIdx (nlList n) (tri i + k) = .ok ((i : ℤ), -(i : ℤ) + 2 * (k : ℤ)) := by
    simp [pyIdx, hget]
  have h3 : (nlList n).getD (tri i + k) (0, 0) = ((i : ℤ), -(i : ℤ) + 2 * (k : ℤ)) := by
    simp [List.getD, hget]
  unfold wfTerm
  rw [h1, h2, h3]
  show (do
    let u ← seqArr fun q => U (.int (i : ℤ)) (.int (-(i : ℤ) + 2 * (k : ℤ))) (rho q) (theta q)
    return fun q => K.getD (tri i + k) 0 * u q) = _
  rw [seqArr_ok _ _ (fun q => U_ok i k hk (rho q) (theta q))]
  rfl

/-- `wavefront` for a triangular number of coefficients. -/
theorem wavefront_ok {ι : Type} (rho theta : ι → ℝ) (K : List ℝ) (n : ℕ)
    (hK : K.length = tri (n + 1)) :
    wavefront rho theta K = .ok (fun q => wfVal n K (rho q) (theta q)) := by
  have ho : orderOf K.length = n := by
    apply orderOf_eq
    · rw [hK]
    · rw [hK, tri_succ (n + 1)]; omega
  unfold wavefront
  simp only [ho]
  rw [mapM_ok _ _ (fun x : ℕ => fun q => K.getD x 0 *
      Uv ((nlList n).getD x (0, 0)).1 ((nlList n).getD x (0, 0)).2 (rho q) (theta q))]
  · show (if List.isEmpty _ = true then _ else _) = _
    have hpos : 0 < tri (n + 1) := by rw [tri_succ]; omega
    rw [if_neg (by
      rw [List.isEmpty_iff, List.map_eq_nil_iff, List.range_eq_nil, hK]; omega)]
    show Except.ok _ = _
    congr 1
    ext q
    rw [List.map_map, hK]
    show ∑ x ∈ range (tri (n + 1)), K.getD x 0 *
      Uv ((nlList n).getD x (0, 0)).1 ((nlList n).getD x (0, 0)).2 (rho q) (theta q) = _
    rw [sum_tri, wfVal]
    refine Finset.sum_congr rfl fun i hi => Finset.sum_congr rfl fun k hk => ?_
    have hi' : i ≤ n := by simpa [Nat.lt_succ_iff] using hi
    have hk' : k ≤ i := by simpa [Nat.lt_succ_iff] using hk
    have : (nlList n).getD (tri i + k) (0, 0) = ((i : ℤ), -(i : ℤ) + 2 * (k : ℤ)) := by
      simp [List.getD, nlList_get n i k hi' hk']
    rw [this]
  · intro x hx
    have hx' : x < K.length := by simpa using hx
    exact wfTerm_ok rho theta K n x (by omega) hx'

theorem mapM_error {α β ε : Type*} (l₁ : List α) (x : α) (l₂ : List α) (f : α → Except ε β)
    (g : α → β) (e : ε) (h : ∀ x ∈ l₁, f x = .ok (g x)) (hx : f x = .error e) :
    (l₁ ++ x :: l₂).mapM f = .error e := by
  induction l₁ with
  | nil => rw [List.nil_append, List.mapM_cons, hx]; rfl
  | cons y ys ih =>
    rw [List.cons_append, List.mapM_cons, h y (by simp), ih (fun z hz => h z (by simp [hz]))]
    rfl

theorem wavefront_empty {ι : Type} (rho theta : ι → ℝ) :
    wavefront rho theta [] = .error .attributeError := rfl

theorem wavefront_index {ι : Type} (rho theta : ι → ℝ) (K : List ℝ) (n : ℕ)
    (h1 : tri (n + 1) < K.length) (h2 : K.length < tri (n + 2)) :
    wavefront rho theta K = .error .indexError := by
  have ho : orderOf K.length = n := orderOf_eq _ _ h1.le h2
  unfold wavefront
  simp only [ho]
  have hsplit : List.range K.length = List.range (tri (n + 1)) ++
      tri (n + 1) :: (List.range (K.length - tri (n + 1) - 1)).map (tri (n + 1) + 1 + ·) := by
    have e : K.length = tri (n + 1) + (1 + (K.length - tri (n + 1) - 1)) := by omega
    conv_lhs => rw [e, List.range_add, List.range_add]
    simp [add_assoc]
  rw [hsplit, mapM_error _ _ _ _ (fun x : ℕ => fun q => K.getD x 0 *
      Uv ((nlList n).getD x (0, 0)).1 ((nlList n).getD x (0, 0)).2 (rho q) (theta q)) .indexError]
  · rfl
  · intro x hx
    have hx' : x < tri (n + 1) := by simpa using hx
    exact wfTerm_ok rho theta K n x hx' (by omega)
  · unfold wfTerm
    have e1 : pyIdx K (tri (n + 1)) = .ok (K.getD (tri (n + 1)) 0) := by
      simp [pyIdx, List.getElem?_eq_getElem h1]
    have e2 : pyIdx (nlList n) (tri (n + 1)) = .error .indexError := by
      have : (nlList n)[tri (n + 1)]? = none := by
        rw [List.getElem?_eq_none_iff, nlList_length]
      simp [pyIdx, this]
    rw [e1, e2]
    rfl

end Verif.Aperture
