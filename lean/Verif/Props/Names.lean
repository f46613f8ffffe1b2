import Verif.Lemmas.Text
import Verif.Lemmas.Wavefront
import Verif.Model.Store
import Verif.Props.Wavefront

/-! # C39: the names in the parameter table -/

namespace Verif.Props

open Verif Verif.Np Verif.Zernike Verif.Aperture Verif.Store

/-- The text `K(n, l)`. -/
def Spec.kName (n l : ℤ) : Str := "K(".toList ++ decInt n ++ [',', ' '] ++ decInt l ++ [')']

/-- A coefficient vector of length `N` with a one at position `i`, otherwise zeros. -/
def Spec.unitVec (N i : ℕ) : List ℝ := (List.range N).map fun k : ℕ => if k = i then 1 else 0

theorem kName_get (l : List (ℤ × ℤ)) (i : ℕ) (h : i < l.length) :
    kName ((l.map fun q => (q.2, q.1)).map Prod.snd) ((l.map fun q => (q.2, q.1)).map Prod.fst) i =
      .ok (Spec.kName (l.getD i (0, 0)).1 (l.getD i (0, 0)).2) := by
  have hl : l[i]? = some l[i] := List.getElem?_eq_getElem h
  unfold kName
  simp only [pyIdx, List.map_map, List.getElem?_map, hl, Option.map_some, Function.comp, List.getD,
    Option.getD_some]
  rfl

theorem paramNames_eq (n : ℕ) : paramNames n =
    .ok (["i_amp".toList, "c_dB".toList, "q".toList, "x_0".toList, "y_0".toList] ++
      (nlList n).map fun p => Spec.kName p.1 p.2) := by
  unfold paramNames
  dsimp only
  rw [mapM_ok _ _ (fun x : ℕ => Spec.kName ((nlList n).getD x (0, 0)).1 ((nlList n).getD x (0, 0)).2)]
  · simp only [bind, Except.bind, pure, Except.pure]
    congr 2
    apply List.ext_getElem
    · simp [C07_length]
    · intro i h1 h2
      have : i < (nlList n).length := by simpa using h2
      simp [List.getD, this]
  · intro x hx
    exact kName_get _ _ (by rw [C07_length]; simpa using hx)

/-- **C39**. Row `5 + i` of the table is named `K(n_i, l_i)`, where `(n_i, l_i)` is the polynomial
that `wavefront` multiplies by coefficient `i`. -/
theorem C39_meaning (n i : ℕ) (hi : i < (n + 1) * (n + 2) / 2) :
    ∃ (names : List Str) (ni li : ℤ), paramNames n = .ok names ∧
      names.length = 5 + (n + 1) * (n + 2) / 2 ∧
      names[5 + i]? = some (Spec.kName ni li) ∧
      ∀ {ι : Type} (rho theta : ι → ℝ), ∃ W,
        wavefront rho theta (Spec.unitVec ((n + 1) * (n + 2) / 2) i) = .ok W ∧
        ∀ q, U (.int ni) (.int li) (rho q) (theta q) = .ok (W q) := by
  obtain ⟨a, k, ha, hk, hx⟩ := exists_row_pos n i hi
  refine ⟨_, a, -(a : ℤ) + 2 * (k : ℤ), paramNames_eq n, ?_, ?_, ?_⟩
  · rw [List.length_append, List.length_map, C07_length]; rfl
  · rw [List.getElem?_append_right (by simp)]
    simp only [List.length_cons, List.length_nil, Nat.zero_add, Nat.reduceAdd, Nat.add_sub_cancel_left,
      List.getElem?_map]
    rw [hx, nlList_get n a k ha hk]
    rfl
  · intro ι rho theta
    refine ⟨_, wavefront_ok rho theta _ n (by simp [Spec.unitVec, tri]), fun q => ?_⟩
    rw [U_ok a k hk]
    congr 1
    unfold wfVal
    have hu : ∀ b j : ℕ, b ≤ n → j ≤ b →
        (Spec.unitVec ((n + 1) * (n + 2) / 2) i).getD (tri b + j) 0 = if tri b + j = i then 1 else 0 := by
      intro b j hb hj
      have : tri b + j < (n + 1) * (n + 2) / 2 := by
        have h1 := tri_mono (show b + 1 ≤ n + 1 by omega)
        rw [tri_succ b] at h1
        show _ < tri (n + 1)
        omega
      simp [Spec.unitVec, List.getD, List.getElem?_range this]
    rw [Finset.sum_eq_single a, Finset.sum_eq_single k]
    · rw [hu a k ha hk, if_pos hx.symm, one_mul]
    · intro j hj hne
      have hj' : j ≤ a := by simpa [Nat.lt_succ_iff] using hj
      rw [hu a j ha hj', if_neg (by omega), zero_mul]
    · intro h; exact absurd (Finset.mem_range.2 (by omega)) h
    · intro b hb hne
      have hb' : b ≤ n := by simpa [Nat.lt_succ_iff] using hb
      refine Finset.sum_eq_zero fun j hj => ?_
      have hj' : j ≤ b := by simpa [Nat.lt_succ_iff] using hj
      rw [hu b j hb' hj', if_neg, zero_mul]
      intro e
      rw [hx] at e
      rcases Nat.lt_or_gt_of_ne hne with h | h
      · have h1 := tri_mono (show b + 1 ≤ a by omega)
        rw [tri_succ b] at h1
        omega
      · have h1 := tri_mono (show a + 1 ≤ b by omega)
        rw [tri_succ a] at h1
        omega
    · intro h; exact absurd (Finset.mem_range.2 (by omega)) h

theorem split_at_sep {a b a' b' : Str} {c : Char} (ha : c ∉ a) (ha' : c ∉ a')
    (h : a ++ c :: b = a' ++ c :: b') : a = a' ∧ b = b' := by
  induction a generalizing a' with
  | nil => cases a' with
    | nil => simpa using h
    | cons x a' =>
      simp only [List.nil_append, List.cons_append, List.cons.injEq] at h
      exact absurd (by rw [h.1]; simp) ha'
  | cons x a ih => cases a' with
    | nil =>
      simp only [List.nil_append, List.cons_append, List.cons.injEq] at h
      exact absurd (by rw [h.1]; simp) ha
    | cons y a' =>
      simp only [List.cons_append, List.cons.injEq] at h
      obtain ⟨h1, h2⟩ := ih (fun hm => ha (by simp [hm])) (fun hm => ha' (by simp [hm])) h.2
      exact ⟨by rw [h.1, h1], h2⟩

theorem decInt_chars {z : ℤ} {c : Char} (h : c ∈ decInt z) : c = '-' ∨ IsDigit c := by
  unfold decInt at h
  split_ifs at h
  · rcases List.mem_cons.1 h with h | h
    · exact .inl h
    · exact .inr (decNat_isDigit h)
  · exact .inr (decNat_isDigit h)

theorem not_mem_decInt {z : ℤ} {c : Char} (h1 : c ≠ '-') (h2 : ¬ IsDigit c) : c ∉ decInt z :=
  fun h => (decInt_chars h).elim h1 h2

theorem kName_inj {n l n' l' : ℤ} (h : Spec.kName n l = Spec.kName n' l') : n = n' ∧ l = l' := by
  unfold Spec.kName at h
  simp only [List.append_assoc, List.append_cancel_left_eq, List.cons_append, List.nil_append] at h
  obtain ⟨h1, h2⟩ := split_at_sep (not_mem_decInt (by decide) (by decide))
    (not_mem_decInt (by decide) (by decide)) h
  simp only [List.cons.injEq, true_and] at h2
  exact ⟨decInt_inj h1, decInt_inj (List.append_cancel_right h2)⟩

/-- **C39**. The first five rows are the illumination parameters. -/
theorem C39_first (n : ℕ) : ∃ names, paramNames n = .ok names ∧
    names.take 5 = ["i_amp".toList, "c_dB".toList, "q".toList, "x_0".toList, "y_0".toList] :=
  ⟨_, paramNames_eq n, by simp⟩

/-- **C39**. The names are distinct. -/
theorem C39_distinct (n : ℕ) : ∃ names, paramNames n = .ok names ∧
    names.length = 5 + (n + 1) * (n + 2) / 2 ∧ names.Nodup := by
  refine ⟨_, paramNames_eq n, by rw [List.length_append, List.length_map, C07_length]; rfl, ?_⟩
  rw [List.nodup_append]
  refine ⟨by decide, ?_, ?_⟩
  · refine List.Nodup.map (fun p q h => ?_) (C07_nodup n)
    obtain ⟨h1, h2⟩ := kName_inj h
    exact Prod.ext h1 h2
  · intro x hx y hy hxy
    obtain ⟨p, -, rfl⟩ := List.mem_map.1 hy
    subst hxy
    simp [Spec.kName] at hx

/-- Order 2: the names of the fourth and fifth coefficient. -/
example : ∃ names : List Str, paramNames 2 = .ok names ∧ names[5 + 4]? = some "K(2, 0)".toList ∧
    names[5 + 3]? = some "K(2, -2)".toList := by
  have h : nlList ((2 : ℕ) : ℤ) = [(0, 0), (1, -1), (1, 1), (2, -2), (2, 0), (2, 2)] := by decide
  refine ⟨_, paramNames_eq 2, ?_, ?_⟩ <;> rw [h] <;> simp [Spec.kName, decInt, decNat, digitChar]

end Verif.Props
