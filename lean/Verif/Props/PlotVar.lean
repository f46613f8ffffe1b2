import Verif.Model.Plot
import Verif.Props.Names
import Verif.Lemmas.Norm

/-!
# C71: the labels of the covariance and correlation figures
-/

namespace Verif.Props

open Verif Verif.Np Verif.Zernike Verif.Aperture Verif.Store Verif.Plot Verif.MathFn

/-- The label of parameter `p`: an illumination parameter, or the coefficient of the polynomial
`(n, l)` where `p - 5 = 0 + 1 + ... + n + k` and `l = -n + 2k`. -/
def Spec.Label (p : ℕ) (s : Str) : Prop :=
  (["$A_{E_\\mathrm{a}}$".toList, "$c_\\mathrm{dB}$".toList, "q".toList, "$x_0$".toList,
    "$y_0$".toList] : List Str)[p]? = some s ∨
  ∃ n k : ℕ, k ≤ n ∧ p = 5 + n * (n + 1) / 2 + k ∧
    s = "$K_{".toList ++ decInt n ++ "\\,".toList ++ decInt (2 * (k : ℤ) - n) ++ "}$".toList

/-- The pixel of `imshow` in which the point `(x, y)` lies: columns from left to right, rows from
bottom to top or, with origin `upper`, from top to bottom. -/
def Spec.Covers {m n : ℕ} {α : Type} (im : Img m n α) (q : Fin m × Fin n) (x y : ℝ) : Prop :=
  im.left + (q.2 : ℕ) * ((im.right - im.left) / n) ≤ x ∧
  x ≤ im.left + ((q.2 : ℕ) + 1) * ((im.right - im.left) / n) ∧
  match im.origin with
  | .lower => im.bottom + (q.1 : ℕ) * ((im.top - im.bottom) / m) ≤ y ∧
      y ≤ im.bottom + ((q.1 : ℕ) + 1) * ((im.top - im.bottom) / m)
  | .upper => im.top - ((q.1 : ℕ) + 1) * ((im.top - im.bottom) / m) ≤ y ∧
      y ≤ im.top - (q.1 : ℕ) * ((im.top - im.bottom) / m)

theorem kLabel_get (l : List (ℤ × ℤ)) (i : ℕ) (h : i < l.length) :
    kLabel ((l.map fun q => (q.2, q.1)).map Prod.snd) ((l.map fun q => (q.2, q.1)).map Prod.fst) i =
      .ok ("$K_{".toList ++ decInt (l.getD i (0, 0)).1 ++ "\\,".toList ++
        decInt (l.getD i (0, 0)).2 ++ "}$".toList) := by
  have hl : l[i]? = some l[i] := List.getElem?_eq_getElem h
  unfold kLabel
  simp only [pyIdx, List.map_map, List.getElem?_map, hl, Option.map_some, Function.comp, List.getD,
    Option.getD_some]
  rfl

/-- The labels, all at their places. -/
theorem paramLabels_ok (n : ℕ) : ∃ names, paramLabels n = .ok names ∧
    names.length = 5 + (n + 1) * (n + 2) / 2 ∧
    ∀ p, p < 5 + (n + 1) * (n + 2) / 2 → ∃ s, names[p]? = some s ∧ Spec.Label p s := by
  unfold paramLabels
  dsimp only
  rw [mapM_ok _ _ (fun i : ℕ => "$K_{".toList ++ decInt ((nlList n).getD i (0, 0)).1 ++ "\\,".toList ++
      decInt ((nlList n).getD i (0, 0)).2 ++ "}$".toList)]
  · refine ⟨_, rfl, by simp; omega, fun p hp => ?_⟩
    by_cases h5 : p < 5
    · rw [List.getElem?_append_left (by simpa using h5)]
      have : p < (["$A_{E_\\mathrm{a}}$".toList, "$c_\\mathrm{dB}$".toList, "q".toList, "$x_0$".toList,
        "$y_0$".toList] : List Str).length := by simpa using h5
      exact ⟨_, List.getElem?_eq_getElem this, .inl (List.getElem?_eq_getElem this)⟩
    · obtain ⟨a, k, ha, hk, hx⟩ := exists_row_pos n (p - 5) (by show p - 5 < (n + 1) * (n + 2) / 2; omega)
      rw [List.getElem?_append_right (by simp; omega)]
      refine ⟨_, ?_, .inr ⟨a, k, hk, ?_, rfl⟩⟩
      · simp only [List.length_cons, List.length_nil, Nat.zero_add, Nat.reduceAdd, List.getElem?_map]
        rw [List.getElem?_range (by omega), Option.map_some, hx, List.getD_eq_getElem?_getD,
          nlList_get n a k ha hk]
        simp only [Option.getD_some]
        rw [show -(a : ℤ) + 2 * (k : ℤ) = 2 * (k : ℤ) - a by ring]
      · unfold tri at hx
        omega
  · intro x hx
    exact kLabel_get _ _ (by rw [C07_length]; simpa using hx)

theorem pyInt_nat (k : ℕ) : pyInt (k : ℝ) = k := by
  unfold pyInt
  rw [if_pos (Nat.cast_nonneg k)]
  simp

/-- The labels of the parameters in the first row. -/
theorem used_ok {m n order : ℕ} (matrix : Fin (m + 1) × Fin n → Option ℝ) (idx : Fin n → ℕ)
    (hidx : ∀ j, matrix (0, j) = some (idx j : ℝ)) (hlt : ∀ j, idx j < 5 + (order + 1) * (order + 2) / 2) :
    ∃ names all, paramLabels order = .ok names ∧
      (List.ofFn fun j => matrix (0, j)).mapM intOf = .ok (List.ofFn fun j => (idx j : ℤ)) ∧
      (List.ofFn fun j => (idx j : ℤ)).mapM (npIdx names) = .ok (List.ofFn all) ∧
      ∀ j, Spec.Label (idx j) (all j) := by
  obtain ⟨names, hn, hl, hlab⟩ := paramLabels_ok order
  have := fun j => hlab (idx j) (hlt j)
  choose all h1 h2 using this
  refine ⟨names, all, hn, ?_, ?_, h2⟩
  · rw [mapM_ok _ _ (fun x : Option ℝ => pyInt (x.getD 0))]
    · rw [List.map_ofFn]
      congr 2
      funext j
      simp [hidx, pyInt_nat]
    · intro x hx
      obtain ⟨j, rfl⟩ := (List.mem_ofFn' _ _).1 hx
      simp only [hidx]
      rfl
  · rw [mapM_ok _ _ (fun x : ℤ => names.getD x.toNat [])]
    · rw [List.map_ofFn]
      congr 2
      funext j
      simp [List.getD_eq_getElem?_getD, h1]
    · intro x hx
      obtain ⟨j, rfl⟩ := (List.mem_ofFn' _ _).1 hx
      simp [npIdx, pyIdx, h1, List.getD_eq_getElem?_getD]

theorem ext_ok {m n : ℕ} (hm : 0 < m) (hn : 0 < n) (A : Fin m × Fin n → Option ℝ) :
    (∃ v, ext arrMax A = .ok v) ∧ ∃ v, ext arrMin A = .ok v := by
  have hne : (Finset.univ : Finset (Fin m × Fin n)).toList.map
      (fun q => match A q with | some r => Fl.fin r | none => Fl.nan) ≠ [] := by
    intro h
    have h1 := congrArg List.length h
    simp at h1
    omega
  obtain ⟨v, hv, -⟩ := arrMax_ok hne
  obtain ⟨w, hw, -⟩ := arrMin_ok hne
  exact ⟨⟨v, hv⟩, ⟨w, hw⟩⟩

theorem range_get (m : ℕ) (c : Fin m) :
    ((List.range m).map fun i : ℕ => (i : ℝ) + 0.5)[(c : ℕ)]? = some (((c : ℕ) : ℝ) + 0.5) := by
  rw [List.getElem?_map, List.getElem?_range c.2]
  rfl

theorem ofFn_get {α : Type} {m : ℕ} (f : Fin m → α) (c : Fin m) : (List.ofFn f)[(c : ℕ)]? = some (f c) := by
  simp

theorem ofFn_reverse_get {α : Type} {m : ℕ} (f : Fin m → α) (c : Fin m) :
    (List.ofFn f).reverse[(c : ℕ)]? = some (f c.rev) := by
  rw [List.getElem?_reverse (by simp)]
  simp only [List.length_ofFn]
  rw [show m - 1 - (c : ℕ) = (c.rev : ℕ) by rw [Fin.val_rev]; omega]
  exact ofFn_get f _

/-- **C71.**  The figure with the diagonal: column `c` is labelled with the parameter of column `c` of
the stored matrix, tick `k` of the vertical axis with that of column `m - 1 - k`; the pixel at these
ticks shows the entry of the matrix for these two parameters, once per pair (at or below the
diagonal), and the rest is masked. -/
theorem C71_cells {m order : ℕ} (strict : Bool) (hm : 0 < m) (matrix : Fin (m + 1) × Fin m → Option ℝ)
    (idx : Fin m → ℕ) (hidx : ∀ j, matrix (0, j) = some (idx j : ℝ))
    (hlt : ∀ j, idx j < 5 + (order + 1) * (order + 2) / 2) :
    ∃ fig, plotVariance2 strict matrix order true = .ok fig ∧
      fig.xLabels.length = m ∧ fig.yLabels.length = m ∧ fig.xTicks.length = m ∧ fig.yTicks.length = m ∧
      ∀ c k : Fin m, ∃ x y lx ly, fig.xTicks[(c : ℕ)]? = some x ∧ fig.yTicks[(k : ℕ)]? = some y ∧
        fig.xLabels[(c : ℕ)]? = some lx ∧ fig.yLabels[(k : ℕ)]? = some ly ∧
        Spec.Label (idx c) lx ∧ Spec.Label (idx k.rev) ly ∧
        (∀ q, Spec.Covers fig.img q x y ↔ q = (k.rev, c)) ∧
        fig.img.data (k.rev, c) = if c ≤ k.rev then some (matrix (c.succ, k.rev)) else none := by
  obtain ⟨names, all, h1, h2, h3, h4⟩ := used_ok matrix idx hidx hlt
  obtain ⟨⟨vmax, hmax⟩, ⟨vmin, hmin⟩⟩ := ext_ok hm hm fun q : Fin m × Fin m => matrix (q.1.succ, q.2)
  unfold plotVariance2
  simp only [h1, h2, h3, hmax, hmin, bind, Except.bind, pure, Except.pure, if_true, ne_eq, not_true,
    if_false, tickLabels, List.length_map, List.length_range, List.length_ofFn, List.length_reverse,
    bne_self_eq_false, Bool.and_false, Bool.false_eq_true]
  refine ⟨_, rfl, by simp, by simp, by simp, by simp, fun c k => ?_⟩
  refine ⟨_, _, _, _, range_get m c, range_get m k, ofFn_get all c, ofFn_reverse_get all k, h4 _, h4 _,
    fun q => ?_, ?_⟩
  · have hm' : (m : ℝ) ≠ 0 := by positivity
    simp only [Spec.Covers, sub_zero, div_self hm', zero_add, mul_one]
    constructor
    · rintro ⟨a1, a2, a3, a4⟩
      have b1 : ((q.2 : ℕ) : ℝ) < ((c : ℕ) : ℝ) + 1 := by linarith
      have b2 : ((c : ℕ) : ℝ) < ((q.2 : ℕ) : ℝ) + 1 := by linarith
      have b3 : ((m : ℕ) : ℝ) < ((k : ℕ) : ℝ) + 1 + (((q.1 : ℕ) : ℝ) + 1) := by linarith
      have b4 : ((k : ℕ) : ℝ) + ((q.1 : ℕ) : ℝ) < m := by linarith
      have c1 : (q.2 : ℕ) < (c : ℕ) + 1 := by exact_mod_cast b1
      have c2 : (c : ℕ) < (q.2 : ℕ) + 1 := by exact_mod_cast b2
      have c3 : m < (k : ℕ) + 1 + ((q.1 : ℕ) + 1) := by exact_mod_cast b3
      have c4 : (k : ℕ) + (q.1 : ℕ) < m := by exact_mod_cast b4
      refine Prod.ext (Fin.ext ?_) (Fin.ext (show (q.2 : ℕ) = c by omega))
      rw [Fin.val_rev]
      omega
    · rintro rfl
      have : (((k.rev : Fin m) : ℕ) : ℝ) = (m : ℝ) - (((k : ℕ) : ℝ) + 1) := by
        rw [Fin.val_rev, Nat.cast_sub (by omega)]
        push_cast
        ring
      simp only [this]
      refine ⟨?_, ?_, ?_, ?_⟩ <;> linarith
  · simp only
    by_cases hc : c ≤ k.rev
    · rw [if_pos hc, if_neg]
      have : (c : ℕ) ≤ (k.rev : ℕ) := hc
      omega
    · rw [if_neg hc, if_pos]
      have : ¬ (c : ℕ) ≤ (k.rev : ℕ) := hc
      omega

theorem ext_attained {m n : ℕ} (hm : 0 < m) (hn : 0 < n) (A : Fin m × Fin n → ℝ) :
    (∃ a, ext arrMin (fun q => some (A q)) = .ok (.fin (A a)) ∧ ∀ q, A a ≤ A q) ∧
    ∃ b, ext arrMax (fun q => some (A q)) = .ok (.fin (A b)) ∧ ∀ q, A q ≤ A b := by
  have hne : (Finset.univ : Finset (Fin m × Fin n)).toList.map (fun q => Fl.fin (A q)) ≠ [] := by
    intro h
    have h1 := congrArg List.length h
    simp at h1
    omega
  refine ⟨?_, ?_⟩
  · obtain ⟨v, hv, h1, h2⟩ := arrMin_ok hne
    obtain ⟨h3, h4⟩ := h2 (by simp)
    obtain ⟨a, -, rfl⟩ := List.mem_map.1 h3
    exact ⟨a, hv, fun q => not_lt.1 (h4 (.fin (A q)) (List.mem_map.2 ⟨q, by simp, rfl⟩))⟩
  · obtain ⟨v, hv, h1, h2⟩ := arrMax_ok hne
    obtain ⟨h3, h4⟩ := h2 (by simp)
    obtain ⟨a, -, rfl⟩ := List.mem_map.1 h3
    exact ⟨a, hv, fun q => not_lt.1 (h4 (.fin (A q)) (List.mem_map.2 ⟨q, by simp, rfl⟩))⟩

/-- **C71.**  The colours run from the smallest to the largest entry of the stored matrix: no cell is
outside the scale, and the header row, which holds the indices, has no part in it. -/
theorem C71_scale {m order : ℕ} (strict : Bool) (hm : 0 < m) (matrix : Fin (m + 1) × Fin m → Option ℝ)
    (idx : Fin m → ℕ) (hidx : ∀ j, matrix (0, j) = some (idx j : ℝ))
    (hlt : ∀ j, idx j < 5 + (order + 1) * (order + 2) / 2)
    (A : Fin m × Fin m → ℝ) (hA : ∀ i j, matrix (i.succ, j) = some (A (i, j))) :
    ∃ fig lo hi, plotVariance2 strict matrix order true = .ok fig ∧
      fig.img.vmin = .fin lo ∧ fig.img.vmax = .fin hi ∧
      IsLeast (Set.range A) lo ∧ IsGreatest (Set.range A) hi ∧
      ∀ q x, fig.img.data q = some (some x) → lo ≤ x ∧ x ≤ hi := by
  obtain ⟨names, all, h1, h2, h3, h4⟩ := used_ok matrix idx hidx hlt
  obtain ⟨⟨a, hmin, ha⟩, ⟨b, hmax, hb⟩⟩ := ext_attained hm hm A
  have hbody : (fun q : Fin m × Fin m => matrix (q.1.succ, q.2)) = fun q => some (A q) :=
    funext fun q => hA q.1 q.2
  unfold plotVariance2
  simp only [hbody, hA, h1, h2, h3, hmax, hmin, bind, Except.bind, pure, Except.pure, if_true, ne_eq, not_true,
    if_false, tickLabels, List.length_map, List.length_range, List.length_ofFn, List.length_reverse,
    bne_self_eq_false, Bool.and_false, Bool.false_eq_true]
  refine ⟨_, A a, A b, rfl, rfl, rfl, ⟨⟨a, rfl⟩, ?_⟩, ⟨⟨b, rfl⟩, ?_⟩, fun q x h => ?_⟩
  · rintro _ ⟨q, rfl⟩
    exact ha q
  · rintro _ ⟨q, rfl⟩
    exact hb q
  · simp only at h
    split_ifs at h
    simp only [Option.some.injEq] at h
    subst h
    exact ⟨ha _, hb _⟩

/-- **C71.**  Without the diagonal the labels do not fit: a current matplotlib refuses them. -/
theorem C71_no_diagonal {m order : ℕ} (hm : 0 < m) (matrix : Fin (m + 1) × Fin m → Option ℝ)
    (idx : Fin m → ℕ) (hidx : ∀ j, matrix (0, j) = some (idx j : ℝ))
    (hlt : ∀ j, idx j < 5 + (order + 1) * (order + 2) / 2) :
    plotVariance2 true matrix order false = .error .valueError := by
  obtain ⟨names, all, h1, h2, h3, h4⟩ := used_ok matrix idx hidx hlt
  obtain ⟨⟨vmax, hmax⟩, ⟨vmin, hmin⟩⟩ := ext_ok hm hm fun q : Fin m × Fin m => matrix (q.1.succ, q.2)
  have hne : (m != m - 1) = true := by
    rw [bne_iff_ne]
    omega
  unfold plotVariance2
  simp [h1, h2, h3, hmax, hmin, bind, Except.bind, tickLabels, dropLast1, hne]

/-- **C71.**  An older one takes them and puts them in the wrong place: vertical tick `k` carries the
parameter one before the one shown in its row. -/
theorem C71_no_diagonal_old {m order : ℕ} (matrix : Fin (m + 2) × Fin (m + 1) → Option ℝ)
    (idx : Fin (m + 1) → ℕ) (hidx : ∀ j, matrix (0, j) = some (idx j : ℝ))
    (hlt : ∀ j, idx j < 5 + (order + 1) * (order + 2) / 2) :
    ∃ fig, plotVariance2 false matrix order false = .ok fig ∧
      ∀ (c : Fin (m + 1)) (k : ℕ) (hk : k + 2 ≤ m + 1), k + 2 < m + 1 → ∃ ly,
        fig.yLabels[k]? = some ly ∧ Spec.Label (idx ⟨m - 1 - k, by omega⟩) ly ∧
        Spec.Covers fig.img (⟨m - k, by omega⟩, c) (((c : ℕ) : ℝ) + 0.5) (((k : ℕ) : ℝ) + 0.5) ∧
        fig.img.data (⟨m - k, by omega⟩, c) = if (c : ℕ) < m - k
          then some (matrix (c.succ, ⟨m - k, by omega⟩)) else none := by
  obtain ⟨names, all, h1, h2, h3, h4⟩ := used_ok matrix idx hidx hlt
  obtain ⟨⟨vmax, hmax⟩, ⟨vmin, hmin⟩⟩ := ext_ok (Nat.succ_pos m) (Nat.succ_pos m)
    fun q : Fin (m + 1) × Fin (m + 1) => matrix (q.1.succ, q.2)
  unfold plotVariance2
  simp only [h1, h2, h3, hmax, hmin, bind, Except.bind, pure, Except.pure, if_true, ne_eq, not_true,
    if_false, tickLabels, Bool.false_and, Bool.false_eq_true]
  refine ⟨_, rfl, fun c k hk hk' => ⟨all ⟨m - 1 - k, by omega⟩, ?_, h4 _, ?_, ?_⟩⟩
  · simp only [dropLast1, List.length_ofFn, Nat.add_sub_cancel]
    rw [List.getElem?_take_of_lt (by simp; omega), List.getElem?_reverse (by simp; omega)]
    rw [List.getElem?_take_of_lt (by simp; omega)]
    simp only [List.length_take, List.length_ofFn, Nat.min_eq_left (Nat.le_succ m)]
    exact ofFn_get all ⟨m - 1 - k, by omega⟩
  · have hm' : ((m + 1 : ℕ) : ℝ) ≠ 0 := by positivity
    simp only [Spec.Covers, sub_zero, div_self hm', zero_add, mul_one]
    rw [Nat.cast_sub (by omega)]
    push_cast
    refine ⟨?_, ?_, ?_, ?_⟩ <;> linarith
  · simp only
    by_cases hc : (c : ℕ) < m - k
    · rw [if_pos hc, if_neg]
      omega
    · rw [if_neg hc, if_pos]
      omega

/-- **C71.**  A fit of a single parameter: the stored matrix of two rows and one column is read as one
dimension and the figure ends in `TypeError`. -/
theorem C71_single (strict diag : Bool) (order : ℕ) (p x : ℝ) :
    ∃ a, AuxFn.genfromtxt [[.fin p], [.fin x]] = .ok a ∧
      plotVariance strict a order diag = .error .typeError := by
  refine ⟨.d1 2 fun i => AuxFn.toNum (([[.fin p], [.fin x]] : List (List Fl)).flatten.get i), ?_, ?_⟩
  · unfold AuxFn.genfromtxt
    simp
  · obtain ⟨names, h, -⟩ := paramLabels_ok order
    unfold plotVariance
    rw [h]
    rfl

/-- A 3 × 3 matrix for the parameters 1, 3 and 8: the pixel at the second column and the lowest row
shows the covariance of `x_0` and `K(2, -2)`. -/
example : ∃ fig, plotVariance2 (m := 3) (n := 3) true (fun q =>
      some (if q.1 = 0 then (![1, 3, 8] : Fin 3 → ℝ) q.2 else 10 * (q.1 : ℕ) + (q.2 : ℕ))) 2 true =
        .ok fig ∧
    fig.img.data (2, 1) = some (some 22) ∧ fig.img.data (0, 1) = none := by
  obtain ⟨fig, h, -, -, -, -, hc⟩ := C71_cells (order := 2) true (by norm_num) (m := 3) (fun q =>
      some (if q.1 = 0 then (![1, 3, 8] : Fin 3 → ℝ) q.2 else 10 * (q.1 : ℕ) + (q.2 : ℕ))) ![1, 3, 8] (by
        intro j
        match j with
        | 0 => simp
        | 1 => simp
        | 2 => simp) (by
        intro j
        match j with
        | 0 => simp
        | 1 => simp
        | 2 => simp)
  refine ⟨fig, h, ?_, ?_⟩
  · obtain ⟨x, y, lx, ly, -, -, -, -, -, -, -, h8⟩ := hc 1 0
    rw [show (2 : Fin 3) = Fin.rev 0 from rfl, h8, if_pos (by decide)]
    simp
    norm_num
  · obtain ⟨x, y, lx, ly, -, -, -, -, -, -, -, h8⟩ := hc 1 2
    rw [show (0 : Fin 3) = Fin.rev 2 from rfl, h8, if_neg (by decide)]

/-- The same matrix: the colours run from 10 to 32, although the header holds a 1. -/
example : ∃ fig, plotVariance2 (m := 3) (n := 3) true (fun q =>
      some (if q.1 = 0 then (![1, 3, 8] : Fin 3 → ℝ) q.2 else 10 * (q.1 : ℕ) + (q.2 : ℕ))) 2 true =
        .ok fig ∧ fig.img.vmin = .fin 10 ∧ fig.img.vmax = .fin 32 := by
  obtain ⟨fig, lo, hi, h, h1, h2, h3, h4, -⟩ := C71_scale (order := 2) true (by norm_num) (m := 3) (fun q =>
      some (if q.1 = 0 then (![1, 3, 8] : Fin 3 → ℝ) q.2 else 10 * (q.1 : ℕ) + (q.2 : ℕ))) ![1, 3, 8] (by
        intro j
        match j with
        | 0 => simp
        | 1 => simp
        | 2 => simp) (by
        intro j
        match j with
        | 0 => simp
        | 1 => simp
        | 2 => simp)
      (fun q => 10 * ((q.1 : ℕ) + 1) + (q.2 : ℕ)) (by
        intro i j
        simp only [Fin.succ_ne_zero, if_false, Fin.val_succ]
        push_cast
        rfl)
  refine ⟨fig, h, h1.trans (congrArg _ (h3.unique ⟨⟨(0, 0), by simp⟩, ?_⟩)),
    h2.trans (congrArg _ (h4.unique ⟨⟨(2, 2), by norm_num⟩, ?_⟩))⟩
  · rintro _ ⟨q, rfl⟩
    have h1 : (0 : ℝ) ≤ ((q.1 : ℕ) : ℝ) := Nat.cast_nonneg _
    have h2 : (0 : ℝ) ≤ ((q.2 : ℕ) : ℝ) := Nat.cast_nonneg _
    simp only
    linarith
  · rintro _ ⟨q, rfl⟩
    have h1 : ((q.1 : ℕ) : ℝ) ≤ 2 := by exact_mod_cast Nat.lt_succ_iff.1 q.1.2
    have h2 : ((q.2 : ℕ) : ℝ) ≤ 2 := by exact_mod_cast Nat.lt_succ_iff.1 q.2.2
    simp only
    linarith

end Verif.Props
