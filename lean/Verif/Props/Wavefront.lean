import Verif.Lemmas.Wavefront

/-! # C07 - C12: coefficient order, wavefront and phase maps -/

namespace Verif.Props

open Verif Verif.Np Verif.Zernike Verif.Aperture Finset

/-! ## C07 -/

/-- **C07** the coefficient order lists exactly the allowed pairs up to order `n`. -/
theorem C07_mem (n : ℕ) (p : ℤ × ℤ) :
    p ∈ nlList n ↔ ∃ i : ℕ, p.1 = i ∧ i ≤ n ∧ Spec.Allowed i p.2 := by
  rw [nlList_eq, List.mem_flatMap]
  constructor
  · rintro ⟨i, hi, hp⟩
    have hi' : i ≤ n := by simpa [Nat.lt_succ_iff] using hi
    obtain ⟨k, hk, rfl⟩ := List.mem_map.1 hp
    have hk' : k ≤ i := by simpa [Nat.lt_succ_iff] using hk
    exact ⟨i, rfl, hi', row_allowed i k hk'⟩
  · rintro ⟨i, h1, h2, h3, m, hm⟩
    refine ⟨i, by simpa [Nat.lt_succ_iff] using h2, List.mem_map.2 ⟨(i - m).toNat, ?_, ?_⟩⟩
    · rw [abs_le] at h3
      simp only [List.mem_range]
      omega
    · rw [abs_le] at h3
      apply Prod.ext
      · exact h1.symm
      · show -(i : ℤ) + 2 * (((i : ℤ) - m).toNat : ℤ) = p.2
        omega

/-- **C07** no repetition. -/
theorem C07_nodup (n : ℕ) : (nlList n).Nodup := by
  induction n with
  | zero => decide
  | succ n ih =>
    push_cast
    rw [nlList_succ, List.nodup_append]
    refine ⟨ih, ?_, ?_⟩
    · refine List.Nodup.map ?_ List.nodup_range
      intro k k' h
      have := congrArg Prod.snd h
      simp only at this
      omega
    · intro p hp q hq h
      obtain ⟨i, h1, h2, -⟩ := (C07_mem n p).1 hp
      obtain ⟨k, -, rfl⟩ := List.mem_map.1 hq
      have := congrArg Prod.fst h
      simp only at this
      omega

/-- **C07** number of polynomials up to order `n`. -/
theorem C07_length (n : ℕ) : (nlList n).length = (n + 1) * (n + 2) / 2 := nlList_length n

/-- **C07** position of a pair: it does not depend on the order `n`. -/
theorem C07_position (n i : ℕ) (j : ℤ) (hi : i ≤ n) (h : Spec.Allowed i j) :
    (nlList n)[i * (i + 1) / 2 + (((i : ℤ) + j) / 2).toNat]? = some ((i : ℤ), j) := by
  obtain ⟨h1, m, hm⟩ := h
  rw [abs_le] at h1
  have := nlList_get n i ((((i : ℤ) + j) / 2).toNat) hi (by omega)
  rw [show tri i = i * (i + 1) / 2 from rfl] at this
  rw [this]
  congr 2
  omega

/-- **C07** the list for order `n` is a prefix of the one for the next order. -/
theorem C07_prefix (n : ℕ) : nlList n <+: nlList ((n : ℤ) + 1) :=
  ⟨row (n + 1), (nlList_succ n).symm⟩

example : (nlList ((5 : ℕ) : ℤ))[3 * (3 + 1) / 2 + ((((3 : ℕ) : ℤ) + (-1)) / 2).toNat]? =
    some (((3 : ℕ) : ℤ), -1) :=
  C07_position 5 3 (-1) (by norm_num) (by constructor <;> norm_num [Int.even_iff])

/-! ## C08 -/

/-- **C08** a triangular number of coefficients is accepted, and the value is the Zernike sum with
coefficient number `i(i+1)/2 + k` for `U(i, 2k - i)`. -/
theorem C08_value {ι : Type} (rho theta : ι → ℝ) (K : List ℝ) (n : ℕ)
    (hK : K.length = (n + 1) * (n + 2) / 2) :
    ∃ W, wavefront rho theta K = .ok W ∧ ∀ q, ∃ u : ℕ → ℕ → ℝ,
      (∀ i k : ℕ, k ≤ i → U (.int i) (.int (2 * (k : ℤ) - i)) (rho q) (theta q) = .ok (u i k)) ∧
      W q = ∑ i ∈ range (n + 1), ∑ k ∈ range (i + 1), K.getD (i * (i + 1) / 2 + k) 0 * u i k := by
  refine ⟨_, wavefront_ok rho theta K n hK, fun q => ⟨fun i k =>
    Uv i (-(i : ℤ) + 2 * (k : ℤ)) (rho q) (theta q), fun i k hk => ?_, rfl⟩⟩
  rw [show 2 * (k : ℤ) - i = -(i : ℤ) + 2 * (k : ℤ) by ring]
  exact U_ok i k hk _ _

/-- **C08** no coefficients: `AttributeError`. -/
theorem C08_empty {ι : Type} (rho theta : ι → ℝ) :
    wavefront rho theta [] = .error .attributeError := wavefront_empty rho theta

/-- **C08** every other number of coefficients: `IndexError`. -/
theorem C08_nontriangular {ι : Type} (rho theta : ι → ℝ) (K : List ℝ) (h0 : K ≠ [])
    (h : ∀ n : ℕ, K.length ≠ (n + 1) * (n + 2) / 2) :
    wavefront rho theta K = .error .indexError := by
  obtain ⟨n, h1, h2⟩ := exists_tri K.length (List.length_pos_of_ne_nil h0)
  exact wavefront_index rho theta K n (lt_of_le_of_ne h1 (Ne.symm (h n))) h2

example : wavefront (fun _ : Fin 3 => (0.5 : ℝ)) (fun _ => 1) [1, 2, 3, 4] = .error .indexError :=
  C08_nontriangular _ _ _ (by simp) (fun n h => by
    have := two_tri (n + 1)
    rw [tri, ← h] at this
    simp only [List.length_cons, List.length_nil] at this
    rcases n with _ | _ | n
    · omega
    · omega
    · nlinarith)

/-! ## C09 -/

theorem getD_zipWith_add (K L : List ℝ) (h : K.length = L.length) (i : ℕ) :
    (List.zipWith (· + ·) K L).getD i 0 = K.getD i 0 + L.getD i 0 := by
  by_cases hi : i < K.length
  · have hi' : i < L.length := h ▸ hi
    simp [List.getD, hi, hi']
  · have hi' : ¬ i < L.length := h ▸ hi
    simp [List.getD, not_lt.1 hi, not_lt.1 hi']

theorem getD_map_mul (K : List ℝ) (c : ℝ) (i : ℕ) :
    (K.map (c * ·)).getD i 0 = c * K.getD i 0 := by
  by_cases hi : i < K.length
  · simp [List.getD, hi]
  · simp [List.getD, not_lt.1 hi]

theorem wfVal_add (n : ℕ) (K L : List ℝ) (h : K.length = L.length) (rho theta : ℝ) :
    wfVal n (List.zipWith (· + ·) K L) rho theta = wfVal n K rho theta + wfVal n L rho theta := by
  unfold wfVal
  rw [← Finset.sum_add_distrib]
  refine Finset.sum_congr rfl fun i _ => ?_
  rw [← Finset.sum_add_distrib]
  refine Finset.sum_congr rfl fun k _ => ?_
  rw [getD_zipWith_add K L h]; ring

theorem wfVal_smul (n : ℕ) (K : List ℝ) (c rho theta : ℝ) :
    wfVal n (K.map (c * ·)) rho theta = c * wfVal n K rho theta := by
  unfold wfVal
  rw [Finset.mul_sum]
  refine Finset.sum_congr rfl fun i _ => ?_
  rw [Finset.mul_sum]
  refine Finset.sum_congr rfl fun k _ => ?_
  rw [getD_map_mul]; ring

/-- **C09** additivity. -/
theorem C09_additive {ι : Type} (rho theta : ι → ℝ) (K L : List ℝ) (hKL : K.length = L.length)
    (W V : ι → ℝ) (hW : wavefront rho theta K = .ok W) (hV : wavefront rho theta L = .ok V) :
    wavefront rho theta (List.zipWith (· + ·) K L) = .ok (fun q => W q + V q) := by
  have hne : K ≠ [] := by
    rintro rfl
    rw [wavefront_empty] at hW
    cases hW
  obtain ⟨n, h1, h2⟩ := exists_tri K.length (List.length_pos_of_ne_nil hne)
  rcases h1.lt_or_eq with h1 | h1
  · rw [wavefront_index rho theta K n h1 h2] at hW; cases hW
  · rw [wavefront_ok rho theta K n h1.symm] at hW
    rw [wavefront_ok rho theta L n (by omega)] at hV
    injection hW with hW
    injection hV with hV
    rw [wavefront_ok rho theta _ n (by simp; omega), ← hW, ← hV]
    congr 1
    ext q
    exact wfVal_add n K L hKL _ _

/-- **C09** homogeneity. -/
theorem C09_homogeneous {ι : Type} (rho theta : ι → ℝ) (K : List ℝ) (c : ℝ)
    (W : ι → ℝ) (hW : wavefront rho theta K = .ok W) :
    wavefront rho theta (K.map (c * ·)) = .ok (fun q => c * W q) := by
  have hne : K ≠ [] := by
    rintro rfl
    rw [wavefront_empty] at hW
    cases hW
  obtain ⟨n, h1, h2⟩ := exists_tri K.length (List.length_pos_of_ne_nil hne)
  rcases h1.lt_or_eq with h1 | h1
  · rw [wavefront_index rho theta K n h1 h2] at hW; cases hW
  · rw [wavefront_ok rho theta K n h1.symm] at hW
    injection hW with hW
    rw [wavefront_ok rho theta _ n (by simp; omega), ← hW]
    congr 1
    ext q
    exact wfVal_smul n K c _ _

/-- **C09** padding with zeros up to a higher order does not change the wavefront. -/
theorem C09_extension {ι : Type} (rho theta : ι → ℝ) (K : List ℝ) (n m : ℕ) (hnm : n ≤ m)
    (hK : K.length = (n + 1) * (n + 2) / 2) :
    wavefront rho theta (K ++ List.replicate ((m + 1) * (m + 2) / 2 - K.length) 0) =
      wavefront rho theta K := by
  have hle : tri (n + 1) ≤ tri (m + 1) := tri_mono (by omega)
  have hlen : (K ++ List.replicate ((m + 1) * (m + 2) / 2 - K.length) 0).length = tri (m + 1) := by
    rw [List.length_append, List.length_replicate, hK]
    show tri (n + 1) + (tri (m + 1) - tri (n + 1)) = _
    omega
  rw [wavefront_ok rho theta _ m hlen, wavefront_ok rho theta K n hK]
  congr 1
  ext q
  have hget : ∀ i, (K ++ List.replicate ((m + 1) * (m + 2) / 2 - K.length) (0 : ℝ)).getD i 0 =
      K.getD i 0 := by
    intro i
    by_cases hi : i < K.length
    · simp [List.getD, List.getElem?_append_left hi]
    · rw [List.getD, List.getD, List.getElem?_append_right (not_lt.1 hi),
        List.getElem?_eq_none (not_lt.1 hi), List.getElem?_replicate]
      split_ifs <;> rfl
  unfold wfVal
  simp only [hget]
  symm
  apply Finset.sum_subset (Finset.range_subset_range.2 (by omega))
  intro i _ hi
  have hi' : n + 1 ≤ i := by simpa using hi
  refine Finset.sum_eq_zero fun k _ => ?_
  have : K.length ≤ tri i + k := by
    have := tri_mono hi'
    rw [hK]
    show tri (n + 1) ≤ _
    omega
  simp [List.getD, List.getElem?_eq_none this]

example : ([0.1, 0.2, 0.3] : List ℝ).length = (1 + 1) * (1 + 2) / 2 := by simp

/-! ## C10 -/

/-- The coefficient used at index `m` by `phase`. -/
noncomputable def Spec.usedCoeff (K : List ℝ) (piston tilt : Bool) (m : ℕ) : ℝ :=
  if (m = 0 ∧ piston = false) ∨ ((m = 1 ∨ m = 2) ∧ tilt = false) then 0 else K.getD m 0

theorem pySet_ok (K : List ℝ) (i : ℕ) (v : ℝ) (h : i < K.length) : pySet K i v = .ok (K.set i v) := by
  simp [pySet, h]

theorem maskCoeff_ok (K : List ℝ) (piston tilt : Bool) (h : K ≠ [])
    (ht : tilt = false → 3 ≤ K.length) :
    ∃ K', maskCoeff K piston tilt = .ok K' ∧ K'.length = K.length ∧
      ∀ m, K'.getD m 0 = Spec.usedCoeff K piston tilt m := by
  have hl : 0 < K.length := List.length_pos_of_ne_nil h
  have hset : ∀ (L : List ℝ) (i m : ℕ), (L.set i 0).getD m 0 = if m = i then 0 else L.getD m 0 := by
    intro L i m
    rw [List.getD, List.getElem?_set]
    by_cases hmi : i = m
    · subst hmi
      rw [if_pos rfl, if_pos rfl]
      split_ifs <;> rfl
    · rw [if_neg hmi, if_neg (Ne.symm hmi)]; rfl
  cases piston <;> cases tilt
  · have := ht rfl
    refine ⟨((K.set 0 0).set 1 0).set 2 0, ?_, by simp, ?_⟩
    · simp only [maskCoeff, Bool.not_false, if_true]
      rw [pySet_ok K 0 0 hl]
      show (do let K2 ← pySet (K.set 0 0) 1 0; pySet K2 2 0) = _
      rw [pySet_ok _ 1 0 (by simp; omega)]
      show pySet ((K.set 0 0).set 1 0) 2 0 = _
      rw [pySet_ok _ 2 0 (by simp; omega)]
    · intro m
      rw [hset, hset, hset, Spec.usedCoeff]
      by_cases h0 : m = 0 <;> by_cases h1 : m = 1 <;> by_cases h2 : m = 2 <;> simp [h0, h1, h2]
  · refine ⟨K.set 0 0, ?_, by simp, ?_⟩
    · simp only [maskCoeff, Bool.not_false, Bool.not_true, if_true]
      rw [pySet_ok K 0 0 hl]
      rfl
    · intro m
      rw [hset, Spec.usedCoeff]
      by_cases h0 : m = 0 <;> simp [h0]
  · have := ht rfl
    refine ⟨(K.set 1 0).set 2 0, ?_, by simp, ?_⟩
    · simp only [maskCoeff, Bool.not_false, Bool.not_true, if_true]
      show (do let K2 ← pySet K 1 0; pySet K2 2 0) = _
      rw [pySet_ok _ 1 0 (by omega)]
      show pySet (K.set 1 0) 2 0 = _
      rw [pySet_ok _ 2 0 (by simp; omega)]
    · intro m
      rw [hset, hset, Spec.usedCoeff]
      by_cases h1 : m = 1 <;> by_cases h2 : m = 2 <;> simp [h1, h2]
  · refine ⟨K, rfl, rfl, ?_⟩
    intro m
    simp [Spec.usedCoeff]

theorem phase_ok (K : List ℝ) (pr : ℝ) (piston tilt : Bool) (N n : ℕ)
    (hK : K.length = tri (n + 1)) (ht : tilt = false → 3 ≤ K.length) :
    ∃ K', K'.length = K.length ∧ (∀ m, K'.getD m 0 = Spec.usedCoeff K piston tilt m) ∧
    phase K pr piston tilt N = .ok ⟨linspace (-pr) pr N, linspace (-pr) pr N, fun q =>
      (open Classical in if (linspace (-pr) pr N q.2) ^ 2 + (linspace (-pr) pr N q.1) ^ 2 > pr ^ 2
        then 0 else
        wfVal n K' (Real.sqrt ((linspace (-pr) pr N q.2) ^ 2 + (linspace (-pr) pr N q.1) ^ 2) / pr)
          (arctan2 (linspace (-pr) pr N q.1) (linspace (-pr) pr N q.2))) * 2 * Real.pi⟩ := by
  have hne : K ≠ [] := by
    rintro rfl
    rw [tri_succ] at hK
    simp at hK
  obtain ⟨K', h1, h2, h3⟩ := maskCoeff_ok K piston tilt hne ht
  refine ⟨K', h2, h3, ?_⟩
  unfold phase
  rw [h1]
  show (do let W ← wavefront _ _ K'; _) = _
  rw [wavefront_ok _ _ K' n (h2.trans hK)]
  rfl

/-- **C10** the phase map: zero outside the aperture, `2π W` inside, with piston and tilt
coefficients removed according to the flags.  `phi[i][j]` belongs to `x[j]`, `y[i]`. -/
theorem C10_phase (K : List ℝ) (pr : ℝ) (piston tilt : Bool) (N n : ℕ)
    (hK : K.length = (n + 1) * (n + 2) / 2) (ht : tilt = false → 3 ≤ K.length) :
    ∃ M K', phase K pr piston tilt N = .ok M ∧ K'.length = K.length ∧
      (∀ m, K'.getD m 0 = Spec.usedCoeff K piston tilt m) ∧
      ∀ i j, (pr ^ 2 < M.x j ^ 2 + M.y i ^ 2 → M.phi (i, j) = 0) ∧
        (M.x j ^ 2 + M.y i ^ 2 ≤ pr ^ 2 → ∃ w,
          wavefront (fun _ : Unit => Real.sqrt (M.x j ^ 2 + M.y i ^ 2) / pr)
            (fun _ => arctan2 (M.y i) (M.x j)) K' = .ok w ∧ M.phi (i, j) = 2 * Real.pi * w ()) := by
  obtain ⟨K', h2, h3, h⟩ := phase_ok K pr piston tilt N n hK ht
  refine ⟨_, K', h, h2, h3, fun i j => ⟨fun hij => ?_, fun hij => ?_⟩⟩
  · simp only
    rw [if_pos hij]; simp
  · refine ⟨_, wavefront_ok _ _ K' n (h2.trans hK), ?_⟩
    simp only
    rw [if_neg (not_lt.2 hij)]
    ring

/-- **C10** without piston and tilt the map does not depend on the first three coefficients. -/
theorem C10_independent (K L : List ℝ) (pr : ℝ) (N n : ℕ) (hn : 1 ≤ n)
    (hK : K.length = (n + 1) * (n + 2) / 2) (hL : L.length = K.length)
    (h : ∀ m, 3 ≤ m → K.getD m 0 = L.getD m 0) :
    phase K pr false false N = phase L pr false false N := by
  have h3 : 3 ≤ tri (n + 1) := by
    have := tri_mono (show 2 ≤ n + 1 by omega)
    simpa [tri] using this
  have h3K : 3 ≤ K.length := by rw [hK]; exact h3
  obtain ⟨K', -, e1, h1⟩ := phase_ok K pr false false N n hK (fun _ => h3K)
  obtain ⟨L', -, e2, h2⟩ := phase_ok L pr false false N n (hL.trans hK) (fun _ => by omega)
  rw [h1, h2]
  have : ∀ r t, wfVal n K' r t = wfVal n L' r t := by
    intro r t
    unfold wfVal
    refine Finset.sum_congr rfl fun i _ => Finset.sum_congr rfl fun k _ => ?_
    rw [e1, e2, Spec.usedCoeff, Spec.usedCoeff]
    by_cases hm : tri i + k < 3
    · have : tri i + k = 0 ∨ tri i + k = 1 ∨ tri i + k = 2 := by omega
      rcases this with h | h | h <;> simp [h]
    · rw [h _ (not_lt.1 hm)]
  simp only [this]

/-- **C10** fewer than three coefficients with `tilt=False`: `IndexError`. -/
theorem C10_indexError (K : List ℝ) (pr : ℝ) (piston : Bool) (N : ℕ) (h : K.length < 3) :
    phase K pr piston false N = .error .indexError := by
  have : maskCoeff K piston false = .error .indexError := by
    rcases K with _ | ⟨a, _ | ⟨b, _ | ⟨c, K⟩⟩⟩
    · cases piston <;> rfl
    · cases piston <;> rfl
    · cases piston <;> rfl
    · simp at h; omega
  unfold phase
  rw [this]
  rfl

theorem heap_bind {α β : Type} (x : HeapM α) (f : α → HeapM β) (h : Heap) :
    (x >>= f).run h = match x.run h with
      | (.ok v, h') => (f v).run h'
      | (.error e, h') => (.error e, h') := by
  show (ExceptT.bind x f).run h = _
  unfold ExceptT.bind ExceptT.run ExceptT.mk
  show (StateT.bind x (ExceptT.bindCont f)) h = _
  unfold StateT.bind
  show (match x h with | (a, s) => ExceptT.bindCont f a s) = _
  rcases x h with ⟨_ | _, _⟩ <;> rfl

theorem setArr_run (k i : ℕ) (v : ℝ) (h : Heap) : (setArr k i v).run h =
    match pySet (h.cell k) i v with
    | .ok L => (.ok (), ⟨Function.update h.cell k L, h.next⟩)
    | .error e => (.error e, h) := by
  unfold setArr pySet
  rw [heap_bind]
  show (ite _ _ _ : HeapM Unit).run h = _
  split_ifs <;> rfl

theorem maskInPlace_run (k : ℕ) (piston tilt : Bool) (h : Heap) :
    ∃ h', (maskInPlace k piston tilt).run h =
        ((maskCoeff (h.cell k) piston tilt).map (fun _ => ()), h') ∧
      (∀ b, b ≠ k → h'.cell b = h.cell b) ∧
      ∀ L, maskCoeff (h.cell k) piston tilt = .ok L → h'.cell k = L := by
  have two : ∀ h : Heap, ∃ h', ((do setArr k 1 0; setArr k 2 0 : HeapM Unit)).run h =
      ((do let K2 ← pySet (h.cell k) 1 0; pySet K2 2 0 : Py (List ℝ)).map (fun _ => ()), h') ∧
      (∀ b, b ≠ k → h'.cell b = h.cell b) ∧
      ∀ L, (do let K2 ← pySet (h.cell k) 1 0; pySet K2 2 0 : Py (List ℝ)) = .ok L →
        h'.cell k = L := by
    intro h
    rw [heap_bind, setArr_run]
    rcases h1 : pySet (h.cell k) 1 0 with e | L1
    · exact ⟨h, rfl, fun _ _ => rfl, fun L hL => by cases hL⟩
    · simp only
      rw [setArr_run]
      simp only [Function.update_self]
      rcases h2 : pySet L1 2 0 with e | L2
      · refine ⟨⟨Function.update h.cell k L1, h.next⟩, ?_, fun b hb => ?_, fun L hL => ?_⟩
        · show _ = (Except.map _ (pySet L1 2 0), _)
          rw [h2]; rfl
        · simp [Function.update_of_ne hb]
        · exfalso
          change pySet L1 2 0 = .ok L at hL
          rw [h2] at hL; cases hL
      · refine ⟨⟨Function.update (Function.update h.cell k L1) k L2, h.next⟩, ?_, fun b hb => ?_, fun L hL => ?_⟩
        · show _ = (Except.map _ (pySet L1 2 0), _)
          rw [h2]; rfl
        · simp [Function.update_of_ne hb]
        · change pySet L1 2 0 = .ok L at hL
          rw [h2] at hL
          injection hL with hL
          simp [hL]
  have mk : ∀ h : Heap, ∃ h', (if !tilt then (do setArr k 1 0; setArr k 2 0) else pure () : HeapM Unit).run h =
      (((if !tilt then (do let K2 ← pySet (h.cell k) 1 0; pySet K2 2 0) else .ok (h.cell k)) : Py (List ℝ)).map
        (fun _ => ()), h') ∧ (∀ b, b ≠ k → h'.cell b = h.cell b) ∧
      ∀ L, ((if !tilt then (do let K2 ← pySet (h.cell k) 1 0; pySet K2 2 0) else .ok (h.cell k)) :
        Py (List ℝ)) = .ok L → h'.cell k = L := by
    intro h
    cases tilt
    · exact two h
    · exact ⟨h, rfl, fun _ _ => rfl, fun L hL => by injection hL⟩
  cases piston
  · show ∃ h', ((setArr k 0 0 >>= fun _ =>
      (if !tilt then (do setArr k 1 0; setArr k 2 0) else pure ()) : HeapM Unit)).run h = _ ∧ _
    rw [heap_bind, setArr_run]
    have hm : maskCoeff (h.cell k) false tilt = (pySet (h.cell k) 0 0 >>= fun K1 =>
      if !tilt then (do let K2 ← pySet K1 1 0; pySet K2 2 0) else .ok K1) := rfl
    rw [hm]
    rcases h1 : pySet (h.cell k) 0 0 with e | L1
    · exact ⟨h, rfl, fun _ _ => rfl, fun L hL => by cases hL⟩
    · obtain ⟨h', e1, e2, e3⟩ := mk ⟨Function.update h.cell k L1, h.next⟩
      simp only [Function.update_self] at e1 e3
      refine ⟨h', e1, fun b hb => ?_, e3⟩
      rw [e2 b hb]
      simp [Function.update_of_ne hb]
  · exact mk h

/-- **C10** the caller's buffer is not modified, whatever happens (also when `phase` raises), and
the result is the one of the pure description. -/
theorem C10_no_mutation (h : Heap) (a : ℕ) (pr : ℝ) (piston tilt : Bool) (N : ℕ) :
    ((phaseM a pr piston tilt N).run h).1 = phase (h.cell a) pr piston tilt N ∧
    ∀ b < h.next, ((phaseM a pr piston tilt N).run h).2.cell b = h.cell b := by
  unfold phaseM
  rw [heap_bind]
  have hcopy : (copyArr a).run h =
      (.ok h.next, ⟨Function.update h.cell h.next (h.cell a), h.next + 1⟩) := rfl
  rw [hcopy]
  simp only
  rw [heap_bind]
  obtain ⟨h', e1, e2, e3⟩ := maskInPlace_run h.next piston tilt
    ⟨Function.update h.cell h.next (h.cell a), h.next + 1⟩
  rw [e1]
  simp only [Function.update_self] at e2 e3 ⊢
  have hb : ∀ b < h.next, h'.cell b = h.cell b := by
    intro b hb
    rw [e2 b (by omega), Function.update_of_ne (by omega)]
  rcases hm : maskCoeff (h.cell a) piston tilt with e | L
  · refine ⟨?_, fun b hb' => hb b hb'⟩
    unfold phase
    rw [hm]
    rfl
  · have hk := e3 L hm
    simp only [Except.map]
    rw [heap_bind]
    have hread : (readArr h.next).run h' = (.ok (h'.cell h.next), h') := rfl
    rw [hread]
    simp only [hk]
    unfold phase
    rw [hm]
    rw [heap_bind]
    have hlift : ∀ w : Py (Fin N × Fin N → ℝ), (liftM w : HeapM _).run h' = (w, h') := fun w => rfl
    rw [hlift]
    simp only [bind, Except.bind]
    rcases wavefront (ι := Fin N × Fin N) _ _ L with e | W
    · exact ⟨rfl, fun b hb' => hb b hb'⟩
    · exact ⟨rfl, fun b hb' => hb b hb'⟩

example : (⟨fun _ => [0.1, 0.2, 0.3], 1⟩ : Heap).next > 0 := by simp

/-! ## C11 -/

/-- **C11** additivity of the phase map for fixed flags. -/
theorem C11_additive (K L : List ℝ) (pr : ℝ) (piston tilt : Bool) (N n : ℕ)
    (hK : K.length = (n + 1) * (n + 2) / 2) (hL : L.length = K.length)
    (ht : tilt = false → 3 ≤ K.length) :
    ∃ M₁ M₂ M, phase K pr piston tilt N = .ok M₁ ∧ phase L pr piston tilt N = .ok M₂ ∧
      phase (List.zipWith (· + ·) K L) pr piston tilt N = .ok M ∧
      ∀ q, M.phi q = M₁.phi q + M₂.phi q := by
  obtain ⟨K', -, e1, h1⟩ := phase_ok K pr piston tilt N n hK ht
  obtain ⟨L', -, e2, h2⟩ := phase_ok L pr piston tilt N n (hL.trans hK) (fun h => by have := ht h; omega)
  obtain ⟨S', -, e3, h3⟩ := phase_ok (List.zipWith (· + ·) K L) pr piston tilt N n
    (by simp [hL]; exact hK) (fun h => by have := ht h; simp; omega)
  refine ⟨_, _, _, h1, h2, h3, fun q => ?_⟩
  have : ∀ r t, wfVal n S' r t = wfVal n K' r t + wfVal n L' r t := by
    intro r t
    unfold wfVal
    rw [← Finset.sum_add_distrib]
    refine Finset.sum_congr rfl fun i _ => ?_
    rw [← Finset.sum_add_distrib]
    refine Finset.sum_congr rfl fun k _ => ?_
    rw [e1, e2, e3]
    unfold Spec.usedCoeff
    rw [getD_zipWith_add K L hL.symm]
    split_ifs <;> ring
  simp only [this]
  split_ifs <;> ring

/-- **C11** homogeneity of the phase map for fixed flags. -/
theorem C11_homogeneous (K : List ℝ) (c pr : ℝ) (piston tilt : Bool) (N n : ℕ)
    (hK : K.length = (n + 1) * (n + 2) / 2) (ht : tilt = false → 3 ≤ K.length) :
    ∃ M₁ M, phase K pr piston tilt N = .ok M₁ ∧
      phase (K.map (c * ·)) pr piston tilt N = .ok M ∧ ∀ q, M.phi q = c * M₁.phi q := by
  obtain ⟨K', -, e1, h1⟩ := phase_ok K pr piston tilt N n hK ht
  obtain ⟨S', -, e3, h3⟩ := phase_ok (K.map (c * ·)) pr piston tilt N n
    (by simp; exact hK) (fun h => by have := ht h; simp; omega)
  refine ⟨_, _, h1, h3, fun q => ?_⟩
  have : ∀ r t, wfVal n S' r t = c * wfVal n K' r t := by
    intro r t
    unfold wfVal
    rw [Finset.mul_sum]
    refine Finset.sum_congr rfl fun i _ => ?_
    rw [Finset.mul_sum]
    refine Finset.sum_congr rfl fun k _ => ?_
    rw [e1, e3]
    unfold Spec.usedCoeff
    rw [getD_map_mul]
    split_ifs <;> ring
  simp only [this]
  split_ifs <;> ring

theorem Uv_abs_le (i k : ℕ) (hk : k ≤ i) (r t : ℝ) (hr : |r| ≤ 1) :
    |Uv i (-(i : ℤ) + 2 * (k : ℤ)) r t| ≤ 1 := by
  obtain ⟨a, b, hba, -, -, h⟩ := U_value i _ (row_allowed i k hk)
  rw [Uv_of_ok (h r t), abs_mul]
  have h2 : |ang (-(i : ℤ) + 2 * (k : ℤ)) t| ≤ 1 := by
    unfold ang
    split_ifs
    · exact Real.abs_sin_le_one _
    · exact Real.abs_cos_le_one _
  exact mul_le_one₀ (Rsum_abs_le a b hba r hr) (abs_nonneg _) h2

theorem sum_abs_eq (L : List ℝ) : (L.map (|·|)).sum = ∑ x ∈ range L.length, |L.getD x 0| := by
  have : L = (List.range L.length).map (fun i => L.getD i 0) := by
    apply List.ext_getElem
    · simp
    · intro i h1 h2
      simp [List.getElem?_eq_getElem h1]
  conv_lhs => rw [this]
  rw [List.map_map]
  rfl

theorem wfVal_abs_le (n : ℕ) (K : List ℝ) (hK : K.length = tri (n + 1)) (r t : ℝ) (hr : |r| ≤ 1) :
    |wfVal n K r t| ≤ (K.map (|·|)).sum := by
  have h1 : (K.map (|·|)).sum = ∑ x ∈ range (tri (n + 1)), |K.getD x 0| := by
    rw [← hK]
    exact sum_abs_eq K
  rw [h1, sum_tri]
  unfold wfVal
  refine (Finset.abs_sum_le_sum_abs _ _).trans (Finset.sum_le_sum fun i _ => ?_)
  refine (Finset.abs_sum_le_sum_abs _ _).trans (Finset.sum_le_sum fun k hk => ?_)
  have hk' : k ≤ i := by simpa [Nat.lt_succ_iff] using hk
  rw [abs_mul]
  exact mul_le_of_le_one_right (abs_nonneg _) (Uv_abs_le i k hk' r t hr)

/-- **C11** the map is bounded by `2π Σ|K_i|`, at each pixel. -/
theorem C11_bound (K : List ℝ) (pr : ℝ) (hpr : 0 < pr) (piston tilt : Bool) (N n : ℕ)
    (hK : K.length = (n + 1) * (n + 2) / 2) (ht : tilt = false → 3 ≤ K.length) :
    ∃ M, phase K pr piston tilt N = .ok M ∧
      ∀ q, |M.phi q| ≤ 2 * Real.pi * (K.map (|·|)).sum := by
  obtain ⟨K', e0, e1, h1⟩ := phase_ok K pr piston tilt N n hK ht
  refine ⟨_, h1, fun q => ?_⟩
  have hsum : (K'.map (|·|)).sum ≤ (K.map (|·|)).sum := by
    have hf : ∀ L : List ℝ, L.length = K.length →
        (L.map (|·|)).sum = ∑ x ∈ range K.length, |L.getD x 0| := by
      intro L hL
      rw [← hL]
      exact sum_abs_eq L
    rw [hf K' e0, hf K rfl]
    refine Finset.sum_le_sum fun x _ => ?_
    rw [e1, Spec.usedCoeff]
    split_ifs
    · simp
    · exact le_rfl
  have hnn : 0 ≤ (K.map (|·|)).sum := by
    apply List.sum_nonneg
    intro x hx
    obtain ⟨y, -, rfl⟩ := List.mem_map.1 hx
    exact abs_nonneg _
  have hpi := Real.pi_pos
  simp only
  split_ifs with hq
  · simp; positivity
  · have hr : |Real.sqrt ((linspace (-pr) pr N q.2) ^ 2 + (linspace (-pr) pr N q.1) ^ 2) / pr| ≤ 1 := by
      rw [abs_div, abs_of_pos hpr, abs_of_nonneg (Real.sqrt_nonneg _), div_le_one hpr]
      rw [Real.sqrt_le_left hpr.le]
      exact not_lt.1 hq
    have := wfVal_abs_le n K' (e0.trans hK) _ (arctan2 (linspace (-pr) pr N q.1) (linspace (-pr) pr N q.2)) hr
    rw [abs_mul, abs_mul, abs_of_pos hpi, abs_of_pos (two_pos : (0:ℝ) < 2)]
    have := this.trans hsum
    nlinarith

example : ([0.1, -0.2, 0.3] : List ℝ).length = (1 + 1) * (1 + 2) / 2 ∧ (0 : ℝ) < 50 := by simp

/-! ## C12 -/

/-- **C12** the axes of the phase map. -/
theorem C12_axes (K : List ℝ) (pr : ℝ) (piston tilt : Bool) (N : ℕ) (M : PhaseMap N)
    (hM : phase K pr piston tilt N = .ok M) :
    M.x = M.y ∧
    (∀ h : 2 ≤ N, M.x ⟨0, by omega⟩ = -pr ∧ M.x ⟨N - 1, by omega⟩ = pr) ∧
    (∀ k : ℕ, ∀ h : k + 1 < N,
      M.x ⟨k + 1, h⟩ - M.x ⟨k, by omega⟩ = 2 * pr / ((N : ℝ) - 1)) ∧
    (2 ≤ N → ∀ k : Fin N, M.x k.rev = -M.x k) := by
  have hx : M.x = linspace (-pr) pr N ∧ M.y = linspace (-pr) pr N := by
    unfold phase at hM
    simp only [bind, Except.bind] at hM
    rcases h1 : maskCoeff K piston tilt with e | K'
    · rw [h1] at hM; cases hM
    · rw [h1] at hM
      simp only at hM
      split at hM
      · cases hM
      · injection hM with hM
        rw [← hM]
        exact ⟨rfl, rfl⟩
  obtain ⟨hx, hy⟩ := hx
  refine ⟨by rw [hx, hy], fun h => ?_, fun k h => ?_, fun hN k => ?_⟩
  · have h2 : (2:ℝ) ≤ N := by exact_mod_cast h
    have hne : (N : ℝ) - 1 ≠ 0 := by intro h; linarith
    rw [hx]
    constructor
    · simp [linspace]
    · simp only [linspace]
      rw [Nat.cast_sub (by omega)]
      push_cast
      field_simp
      ring
  · rw [hx]
    simp only [linspace]
    push_cast
    ring
  · have h2 : (2:ℝ) ≤ N := by exact_mod_cast hN
    have hne : (N : ℝ) - 1 ≠ 0 := by intro h; linarith
    rw [hx]
    simp only [linspace, Fin.val_rev]
    have hk := k.isLt
    rw [Nat.cast_sub (by omega)]
    push_cast
    field_simp
    ring

example : ∃ M : PhaseMap 5, phase [0.1, 0.2, 0.3] 50 false false 5 = .ok M := by
  obtain ⟨K', -, -, h⟩ := phase_ok [0.1, 0.2, 0.3] 50 false false 5 1 (by simp [tri]) (by simp)
  exact ⟨_, h⟩

end Verif.Props
