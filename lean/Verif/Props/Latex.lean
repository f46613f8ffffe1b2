import Verif.Model.AuxFn
import Mathlib.Tactic.NormNum
import Mathlib.Tactic.Linarith
import Mathlib.Tactic.FieldSimp

/-! # C50 `str2LaTeX`, C52 `uv_ratio` -/

namespace Verif.Props

open Verif Verif.AuxFn Verif.MathFn

/-! ## C50 -/

theorem latexStep_cons (x : Str) (l : List Str) (i : ℕ) :
    latexStep (x :: l) (i + 1) = x :: latexStep l i := by
  unfold latexStep
  rw [List.getElem?_cons_succ]
  split_ifs
  · rw [List.set_cons_succ]
  · rfl

theorem latex_fold (x : Str) (l : List Str) (is : List ℕ) :
    (is.map Nat.succ).foldl latexStep (x :: l) = x :: is.foldl latexStep l := by
  induction is generalizing l with
  | nil => rfl
  | cons i is ih => rw [List.map_cons, List.foldl_cons, latexStep_cons, ih]; rfl

/-- The replacement, character by character. -/
theorem str2LaTeX_cons (c : Char) (s : Str) :
    str2LaTeX (c :: s) = (if c = '_' then ['\\', '_'] else [c]) ++ str2LaTeX s := by
  have e : latexStep ([c] :: s.map fun c => [c]) 0 =
      (if c = '_' then ['\\', '_'] else [c]) :: s.map fun c => [c] := by
    unfold latexStep
    by_cases h : c = '_'
    · subst h; simp
    · simp [h]
  unfold str2LaTeX
  simp only [List.map_cons, List.length_cons]
  rw [List.range_succ_eq_map, List.foldl_cons, e, latex_fold, List.flatten_cons]

/-- **C50**. Each underscore becomes a backslash and an underscore, all else stays. -/
theorem C50_replaces (s t : Str) (c : Char) :
    str2LaTeX [] = [] ∧ str2LaTeX ['_'] = ['\\', '_'] ∧ (c ≠ '_' → str2LaTeX [c] = [c]) ∧
    str2LaTeX (s ++ t) = str2LaTeX s ++ str2LaTeX t := by
  refine ⟨rfl, rfl, fun h => by rw [str2LaTeX_cons, if_neg h]; rfl, ?_⟩
  induction s with
  | nil => rfl
  | cons x s ih => rw [List.cons_append, str2LaTeX_cons, str2LaTeX_cons, ih, List.append_assoc]

/-- **C50**. The length grows by the number of underscores; nothing changes exactly when there is
none. -/
theorem C50_length (s : Str) :
    (str2LaTeX s).length = s.length + s.count '_' ∧ (str2LaTeX s = s ↔ '_' ∉ s) := by
  have h1 : ∀ s : Str, (str2LaTeX s).length = s.length + s.count '_' := by
    intro s
    induction s with
    | nil => rfl
    | cons c s ih =>
      rw [str2LaTeX_cons, List.length_append, ih, List.length_cons, List.count_cons]
      by_cases hc : c = '_'
      · subst hc; simp; omega
      · simp [hc]; omega
  refine ⟨h1 s, fun h => ?_, fun h => ?_⟩
  · have := h1 s
    rw [h] at this
    exact List.count_eq_zero.1 (by omega)
  · induction s with
    | nil => rfl
    | cons c s ih =>
      rw [List.mem_cons, not_or] at h
      rw [str2LaTeX_cons, if_neg (fun e => h.1 e.symm), ih h.2]
      rfl

/-- A result never starts with an underscore. -/
theorem latex_head (s r : Str) : str2LaTeX s ≠ '_' :: r := by
  cases s with
  | nil => intro h; cases h
  | cons c s =>
    rw [str2LaTeX_cons]
    by_cases hc : c = '_'
    · subst hc; intro h; cases h
    · rw [if_neg hc]
      intro h
      cases h
      exact hc rfl

/-- **C50**. Different strings give different strings. -/
theorem C50_injective (s t : Str) (h : str2LaTeX s = str2LaTeX t) : s = t := by
  induction s generalizing t with
  | nil =>
    cases t with
    | nil => rfl
    | cons c t =>
      rw [str2LaTeX_cons] at h
      split_ifs at h <;> cases h
  | cons c s ih =>
    cases t with
    | nil =>
      rw [str2LaTeX_cons] at h
      split_ifs at h <;> cases h
    | cons d t =>
      rw [str2LaTeX_cons, str2LaTeX_cons] at h
      by_cases hc : c = '_' <;> by_cases hd : d = '_'
      · rw [if_pos hc, if_pos hd] at h
        rw [hc, hd, ih t (List.append_cancel_left h)]
      · rw [if_pos hc, if_neg hd] at h
        simp only [List.cons_append, List.nil_append, List.cons.injEq] at h
        exact absurd h.2.symm (latex_head t _)
      · rw [if_neg hc, if_pos hd] at h
        simp only [List.cons_append, List.nil_append, List.cons.injEq] at h
        exact absurd h.2 (latex_head s _)
      · rw [if_neg hc, if_neg hd] at h
        simp only [List.cons_append, List.nil_append, List.cons.injEq] at h
        rw [h.1, ih t h.2]

example : str2LaTeX "a_b\\_".toList = "a\\_b\\\\_".toList := rfl

/-! ## C52 -/

/-- `a` is the least and `b` the largest value. -/
def Spec.Range {n : ℕ} (u : Fin n → ℝ) (a b : ℝ) : Prop :=
  (∃ i, u i = a) ∧ (∃ i, u i = b) ∧ ∀ i, a ≤ u i ∧ u i ≤ b

theorem foldl_min_spec (l : List ℝ) (a : ℝ) :
    (l.foldl min a = a ∨ l.foldl min a ∈ l) ∧ l.foldl min a ≤ a ∧ ∀ x ∈ l, l.foldl min a ≤ x := by
  induction l generalizing a with
  | nil => simp
  | cons b l ih =>
    rw [List.foldl_cons]
    obtain ⟨h1, h2, h3⟩ := ih (min a b)
    refine ⟨?_, h2.trans (min_le_left _ _), fun x hx => ?_⟩
    · rcases h1 with h1 | h1
      · rw [h1]
        rcases min_choice a b with h | h <;> simp [h]
      · right; simp [h1]
    · rcases List.mem_cons.1 hx with rfl | hx
      · exact h2.trans (min_le_right _ _)
      · exact h3 x hx

theorem foldl_max_spec (l : List ℝ) (a : ℝ) :
    (l.foldl max a = a ∨ l.foldl max a ∈ l) ∧ a ≤ l.foldl max a ∧ ∀ x ∈ l, x ≤ l.foldl max a := by
  induction l generalizing a with
  | nil => simp
  | cons b l ih =>
    rw [List.foldl_cons]
    obtain ⟨h1, h2, h3⟩ := ih (max a b)
    refine ⟨?_, (le_max_left _ _).trans h2, fun x hx => ?_⟩
    · rcases h1 with h1 | h1
      · rw [h1]
        rcases max_choice a b with h | h <;> simp [h]
      · right; simp [h1]
    · rcases List.mem_cons.1 hx with rfl | hx
      · exact (le_max_right _ _).trans h2
      · exact h3 x hx

/-- The least and the largest value exist and are what `min` and `max` return. -/
theorem range_spec {n : ℕ} (hn : 0 < n) (u : Fin n → ℝ) :
    ∃ a b, minR u = .ok a ∧ maxR u = .ok b ∧ Spec.Range u a b := by
  obtain ⟨n, rfl⟩ : ∃ m, n = m + 1 := ⟨n - 1, by omega⟩
  unfold minR maxR
  rw [List.ofFn_succ]
  refine ⟨_, _, rfl, rfl, ?_⟩
  obtain ⟨h1, h2, h3⟩ := foldl_min_spec (List.ofFn fun i : Fin n => u i.succ) (u 0)
  obtain ⟨k1, k2, k3⟩ := foldl_max_spec (List.ofFn fun i : Fin n => u i.succ) (u 0)
  refine ⟨?_, ?_, fun i => ?_⟩
  · rcases h1 with h | h
    · exact ⟨0, h.symm⟩
    · obtain ⟨j, hj⟩ := (List.mem_ofFn' _ _).1 h
      exact ⟨j.succ, hj⟩
  · rcases k1 with h | h
    · exact ⟨0, h.symm⟩
    · obtain ⟨j, hj⟩ := (List.mem_ofFn' _ _).1 h
      exact ⟨j.succ, hj⟩
  · refine Fin.cases ⟨h2, k2⟩ (fun j => ⟨h3 _ ?_, k3 _ ?_⟩) i
    · exact (List.mem_ofFn' _ _).2 ⟨j, rfl⟩
    · exact (List.mem_ofFn' _ _).2 ⟨j, rfl⟩

theorem range_unique {n : ℕ} {u : Fin n → ℝ} {a b a' b' : ℝ} (h : Spec.Range u a b)
    (h' : Spec.Range u a' b') : a = a' ∧ b = b' := by
  obtain ⟨⟨i, rfl⟩, ⟨j, rfl⟩, h⟩ := h
  obtain ⟨⟨i', rfl⟩, ⟨j', rfl⟩, h'⟩ := h'
  exact ⟨le_antisymm (h i').1 (h' i).1, le_antisymm (h' j).2 (h j').2⟩

/-- **C52**. For axes with more than one value, the figure has height 5 and width 11.25 times the
ratio of the extents. -/
theorem C52_value {m n : ℕ} (u : Fin m → ℝ) (v : Fin n → ℝ) (u0 u1 v0 v1 : ℝ)
    (hu : Spec.Range u u0 u1) (hv : Spec.Range v v0 v1) (hne : v0 ≠ v1) :
    uvRatio u v = .ok (.fin (11.25 * (u1 - u0) / (v1 - v0)), 5) := by
  have hm : 0 < m := by obtain ⟨⟨i, -⟩, -⟩ := hu; exact i.pos
  have hn : 0 < n := by obtain ⟨⟨i, -⟩, -⟩ := hv; exact i.pos
  obtain ⟨a, b, e1, e2, h1⟩ := range_spec hm u
  obtain ⟨c, d, e3, e4, h2⟩ := range_spec hn v
  obtain ⟨rfl, rfl⟩ := range_unique h1 hu
  obtain ⟨rfl, rfl⟩ := range_unique h2 hv
  have hd : d - c ≠ 0 := sub_ne_zero.2 (Ne.symm hne)
  unfold uvRatio
  simp only [e1, e2, e3, e4, bind, Except.bind, pure, Except.pure, Fl.div, if_neg hd, Fl.mul]
  congr 3
  field_simp
  ring

/-- The extent of a shifted and rescaled axis. -/
theorem range_affine {n : ℕ} {u : Fin n → ℝ} {a b : ℝ} (h : Spec.Range u a b) (k s : ℝ) (hk : 0 < k) :
    Spec.Range (fun i => k * u i + s) (k * a + s) (k * b + s) := by
  obtain ⟨⟨i, rfl⟩, ⟨j, rfl⟩, h⟩ := h
  refine ⟨⟨i, rfl⟩, ⟨j, rfl⟩, fun l => ⟨?_, ?_⟩⟩
  · have := mul_le_mul_of_nonneg_left (h l).1 hk.le; linarith
  · have := mul_le_mul_of_nonneg_left (h l).2 hk.le; linarith

/-- **C52**. The figure does not depend on the unit of the axes nor on shifts of them. -/
theorem C52_invariant {m n : ℕ} (u : Fin m → ℝ) (v : Fin n → ℝ) (u0 u1 v0 v1 : ℝ)
    (hu : Spec.Range u u0 u1) (hv : Spec.Range v v0 v1) (hne : v0 ≠ v1) (k s t : ℝ) (hk : 0 < k) :
    uvRatio (fun i => k * u i + s) (fun i => k * v i + t) = uvRatio u v := by
  have hd : v1 - v0 ≠ 0 := sub_ne_zero.2 (Ne.symm hne)
  rw [C52_value u v u0 u1 v0 v1 hu hv hne, C52_value _ _ _ _ _ _ (range_affine hu k s hk)
    (range_affine hv k t hk) (fun h => hne (mul_left_cancel₀ hk.ne' (by linarith)))]
  have e1 : k * u1 + s - (k * u0 + s) = k * (u1 - u0) := by ring
  have e2 : k * v1 + t - (k * v0 + t) = k * (v1 - v0) := by ring
  rw [e1, e2]
  congr 3
  rw [← mul_assoc, mul_comm (11.25 : ℝ) k, mul_assoc, mul_div_mul_left _ _ hk.ne']

/-- **C52**. With the axes exchanged the widths multiply to 11.25 squared. -/
theorem C52_exchange {m n : ℕ} (u : Fin m → ℝ) (v : Fin n → ℝ) (u0 u1 v0 v1 : ℝ)
    (hu : Spec.Range u u0 u1) (hv : Spec.Range v v0 v1) (hnu : u0 ≠ u1) (hnv : v0 ≠ v1) :
    ∃ w w', uvRatio u v = .ok (.fin w, 5) ∧ uvRatio v u = .ok (.fin w', 5) ∧ w * w' = 11.25 ^ 2 := by
  have hd : v1 - v0 ≠ 0 := sub_ne_zero.2 (Ne.symm hnv)
  have he : u1 - u0 ≠ 0 := sub_ne_zero.2 (Ne.symm hnu)
  refine ⟨_, _, C52_value u v u0 u1 v0 v1 hu hv hnv, C52_value v u v0 v1 u0 u1 hv hu hnu, ?_⟩
  field_simp

/-- **C52**. No value on an axis: `ValueError`. -/
theorem C52_empty {n : ℕ} (u : Fin 0 → ℝ) (v : Fin n → ℝ) : uvRatio u v = .error .valueError := by
  unfold uvRatio maxR
  rw [List.ofFn_zero]
  rfl

example : Spec.Range (![1, 4, 2] : Fin 3 → ℝ) 1 4 ∧ Spec.Range (![0, 2] : Fin 2 → ℝ) 0 2 := by
  refine ⟨⟨⟨0, by simp⟩, ⟨1, by simp⟩, fun i => ?_⟩, ⟨⟨0, by simp⟩, ⟨1, by simp⟩, fun i => ?_⟩⟩
  · fin_cases i <;> simp <;> norm_num
  · fin_cases i <;> simp

end Verif.Props
