import Verif.Props.HalfWritten
import Mathlib.Data.List.GetD

/-!
# C132: the columns of the phase from a half-written file
-/

namespace Verif.Props

open Verif Verif.Csv Verif.Actuator.Act

/-- The rows of an array. -/
def Spec.mapRows {m n : ℕ} (f : Fin m × Fin n → Fl) : List (List Fl) := List.ofFn fun i => List.ofFn fun j => f (i, j)

/-! ## What is read -/

theorem genfromtxt_rows (rd : ℝ → Fl) (s : Str) :
    genfromtxt rd s = match csvRows s with
      | [] => .ok []
      | r :: rs =>
        if rs.all (fun r' => r'.length == r.length) then
          .ok ((r :: rs).map fun r => r.map fun w => (parseFloat rd w).getD .nan)
        else .error .valueError := rfl

theorem genfromtxt_same (rd : ℝ → Fl) (s : Str) (k : ℕ) (h : ∀ r ∈ csvRows s, r.length = k) :
    genfromtxt rd s = .ok ((csvRows s).map fun r => r.map fun w => (parseFloat rd w).getD .nan) := by
  rw [genfromtxt_rows]
  generalize csvRows s = l at h
  cases l with
  | nil => rfl
  | cons r rs =>
    simp only
    rw [if_pos]
    rw [List.all_eq_true]
    intro r' hr'
    simp [h r' (by simp [hr']), h r (by simp)]

theorem genfromtxt_other (rd : ℝ → Fl) (s : Str) {a b : List Str} (l : List (List Str)) (h : csvRows s = a :: l)
    (hb : b ∈ l) (hab : b.length ≠ a.length) : genfromtxt rd s = .error .valueError := by
  rw [genfromtxt_rows, h]
  simp only
  rw [if_neg]
  rw [List.all_eq_true]
  intro hall
  have := hall b hb
  exact hab (by simpa using this)

theorem read_rows {rd : ℝ → Fl} (hrd : Spec.Reader rd) (r : List Fl) (hd : ∀ x ∈ r, Spec.Double x) :
    (r.map fmt18).map (fun w => (parseFloat rd w).getD .nan) = r := by
  rw [List.map_map]
  conv_rhs => rw [← List.map_id r]
  refine List.map_congr_left fun x hx => ?_
  simp only [Function.comp, id, parse_fmt18 hrd (hd x hx), Option.getD_some]

theorem read_table {rd : ℝ → Fl} (hrd : Spec.Reader rd) (rows : List (List Fl)) (hd : ∀ r ∈ rows, ∀ x ∈ r, Spec.Double x) :
    (rows.map fun r => r.map fmt18).map (fun r => r.map fun w => (parseFloat rd w).getD .nan) = rows := by
  rw [List.map_map]
  conv_rhs => rw [← List.map_id rows]
  exact List.map_congr_left fun r hr => read_rows hrd r (hd r hr)

/-- **C132.**  `np.genfromtxt` of a first part of a csv file of the fit: it refuses it, or it gives the first rows of the
table as they are, or the first rows and then a row of which only the last entry is another one; that row is complete
unless it is the first one. -/
theorem C132_rows {rd : ℝ → Fl} (hrd : Spec.Reader rd) (header : Str) (hh : '\r' ∉ header) (rows : List (List Fl)) (n : ℕ)
    (hn : n ≠ 0) (hlen : ∀ r ∈ rows, r.length = n) (hd : ∀ r ∈ rows, ∀ x ∈ r, Spec.Double x) (t : Str)
    (ht : t <+: savetxt header rows) :
    genfromtxt rd t = .error .valueError ∨
    (∃ pre post, rows = pre ++ post ∧ genfromtxt rd t = .ok pre) ∨
    (∃ pre a x post v, rows = pre ++ (a ++ [x]) :: post ∧ genfromtxt rd t = .ok (pre ++ [a ++ [v]])) ∨
    ∃ a x b post v, rows = (a ++ x :: b) :: post ∧ genfromtxt rd t = .ok [a ++ [v]] := by
  rcases savetxt_cut header hh rows (fun r hr h0 => hn (by rw [← hlen r hr, h0]; rfl)) t ht with
    ⟨pre, post, e1, e2, -⟩ | ⟨pre, a, x, b, post, w, u, e1, -, -, -, e2, -⟩
  · refine .inr (.inl ⟨pre, post, e1, ?_⟩)
    have hp : ∀ r ∈ pre, r ∈ rows := fun r hr => by rw [e1]; simp [hr]
    rw [genfromtxt_same rd t n (by
      rw [e2]
      intro r hr
      obtain ⟨r, hr', rfl⟩ := List.mem_map.1 hr
      rw [List.length_map]
      exact hlen r (hp r hr')), e2, read_table hrd pre fun r hr => hd r (hp r hr)]
  · have hp : ∀ r ∈ pre, r ∈ rows := fun r hr => by rw [e1]; simp [hr]
    have hr0 : (a ++ x :: b) ∈ rows := by rw [e1]; simp
    have ha : (a.map fmt18 ++ [w]).map (fun w => (parseFloat rd w).getD .nan) = a ++ [(parseFloat rd w).getD .nan] := by
      rw [List.map_append, read_rows hrd a fun y hy => hd _ hr0 y (by simp [hy])]
      rfl
    by_cases hb : b = []
    · subst hb
      refine .inr (.inr (.inl ⟨pre, a, x, post, (parseFloat rd w).getD .nan, e1, ?_⟩))
      rw [genfromtxt_same rd t n (by
        rw [e2]
        intro r hr
        rcases List.mem_append.1 hr with hr | hr
        · obtain ⟨r, hr', rfl⟩ := List.mem_map.1 hr
          rw [List.length_map]
          exact hlen r (hp r hr')
        · rw [List.mem_singleton] at hr
          subst hr
          have := hlen _ hr0
          simpa using this), e2, List.map_append, read_table hrd pre fun r hr => hd r (hp r hr), List.map_singleton, ha]
    · cases pre with
      | nil =>
        refine .inr (.inr (.inr ⟨a, x, b, post, (parseFloat rd w).getD .nan, e1, ?_⟩))
        rw [genfromtxt_same rd t (a.length + 1) (by rw [e2]; simp), e2, List.map_nil, List.nil_append, List.map_singleton, ha]
      | cons r pre =>
        left
        refine genfromtxt_other (b := a.map fmt18 ++ [w]) rd t _ e2 (by simp) ?_
        have h1 := hlen r (hp r (by simp))
        have h2 := hlen _ hr0
        have h3 : b.length ≠ 0 := fun h => hb (List.length_eq_zero_iff.1 h)
        simp only [List.length_append, List.length_map, List.length_cons, List.length_nil] at h2 ⊢
        omega

/-! ## The array -/

theorem squeeze_map (rows : List (List Fl)) (m n : ℕ) (hm : 2 ≤ m) (hn : n ≠ 1) (h1 : rows.length = m)
    (h2 : ∀ r ∈ rows, r.length = n) :
    squeeze rows = .arr (.d2 m n fun q => (rows.getD q.1 []).getD q.2 .nan) := by
  match rows with
  | [] => exact absurd h1 (by simp; omega)
  | [_] => exact absurd h1 (by simp; omega)
  | r :: s :: rs =>
    have := h2 r (by simp)
    subst this h1
    rw [squeeze, if_neg hn]

theorem squeeze_one (rnd : ℝ → Fl) (L : Dbl.LibmP) (adds : ∀ k, Dbl.Adds k) (rows : List (List Fl)) (h1 : rows.length < 2) :
    columns rnd L adds (squeeze rows) = .error .indexError := by
  match rows with
  | [] => rfl
  | [[]] => rfl
  | [[x]] => rfl
  | [x :: y :: r] => rfl
  | r :: s :: rs => simp at h1

theorem columns_shape (rnd : ℝ → Fl) (L : Dbl.LibmP) (adds : ∀ k, Dbl.Adds k) (m n : ℕ) (f : Fin m × Fin n → Fl)
    (h : m ≠ n) : columns rnd L adds (.arr (.d2 m n f)) = .error .indexError := by
  have hm : Dbl.maskNan (Dbl.circMask rnd m n) f = .error .indexError := by
    unfold Dbl.maskNan
    rw [dif_neg h]
  simp only [columns, Dbl.rms, hm]
  rfl

/-- The corner is outside the circle. -/
theorem corner_masked {rnd : ℝ → Fl} (h : Spec.Rounding rnd) {N : ℕ} (hN : 2 ≤ N) (i j : Fin N)
    (hi : (i : ℕ) = N - 1) (hj : (j : ℕ) = N - 1) : Dbl.circMask rnd N N (i, j) := by
  have hl : ∀ i : Fin N, (i : ℕ) = N - 1 → Dbl.linspace rnd (.fin (-1)) (.fin 1) N i = .fin 1 := by
    intro i hi
    unfold Dbl.linspace
    rw [if_pos ⟨by omega, by omega⟩]
  have h2 : Spec.IsDouble 2 := by
    have := isDouble_nat (n := 2) (by norm_num)
    exact_mod_cast this
  unfold Dbl.circMask Np.meshX Np.meshY
  simp only [hl i hi, hl j hj, ofInt_one h, Dbl.sumSq]
  have e1 : Dbl.mul rnd (.fin 1) (.fin 1) = .fin 1 := by
    show rnd (1 * 1) = _
    rw [mul_one, round_self h isDouble_one]
  rw [e1]
  have e2 : Dbl.add rnd (.fin 1) (.fin 1) = .fin 2 := by
    show rnd (1 + 1) = _
    rw [show (1 : ℝ) + 1 = 2 by norm_num, round_self h h2]
  rw [e2]
  show (1 : ℝ) < 2
  norm_num

theorem maskNan_corner {rnd : ℝ → Fl} (h : Spec.Rounding rnd) {N : ℕ} (hN : 2 ≤ N) (f g : Fin N × Fin N → Fl)
    (hfg : ∀ q : Fin N × Fin N, ¬ ((q.1 : ℕ) = N - 1 ∧ (q.2 : ℕ) = N - 1) → f q = g q) :
    Dbl.maskNan (Dbl.circMask rnd N N) f = Dbl.maskNan (Dbl.circMask rnd N N) g := by
  unfold Dbl.maskNan
  rw [dif_pos rfl, dif_pos rfl]
  congr 1
  funext q
  by_cases hq : (q.1 : ℕ) = N - 1 ∧ (q.2 : ℕ) = N - 1
  · have := corner_masked h hN (q.1.cast rfl) (q.2.cast rfl) hq.1 hq.2
    rw [if_pos this, if_pos this]
  · rw [hfg q hq]

/-- Only the entries in the circle count. -/
theorem columns_corner {rnd : ℝ → Fl} (h : Spec.Rounding rnd) (L : Dbl.LibmP) (adds : ∀ k, Dbl.Adds k) {N : ℕ} (hN : 2 ≤ N)
    (f g : Fin N × Fin N → Fl)
    (hfg : ∀ q : Fin N × Fin N, ¬ ((q.1 : ℕ) = N - 1 ∧ (q.2 : ℕ) = N - 1) → f q = g q) :
    columns rnd L adds (.arr (.d2 N N f)) = columns rnd L adds (.arr (.d2 N N g)) := by
  have hm : ∃ k, Dbl.maskNan (Dbl.circMask rnd N N) g = .ok k := by
    unfold Dbl.maskNan
    rw [dif_pos rfl]
    exact ⟨_, rfl⟩
  obtain ⟨k, hk⟩ := hm
  have hk' := (maskNan_corner h hN f g hfg).trans hk
  simp only [columns, Dbl.rms, hk, hk']

/-- The rms in the circle of a square array is a number. -/
theorem rms_square (rnd : ℝ → Fl) (adds : ∀ k, Dbl.Adds k) {N : ℕ} (f : Fin N × Fin N → Fl) :
    ∃ v g, Dbl.rms rnd adds (.d2 N N f) true = (.ok v, .d2 N N g) := by
  have hm : ∃ k, Dbl.maskNan (Dbl.circMask rnd N N) f = .ok k := by
    unfold Dbl.maskNan
    rw [dif_pos rfl]
    exact ⟨_, rfl⟩
  obtain ⟨k, hk⟩ := hm
  refine ⟨Dbl.sqrtMean rnd (Dbl.nansumSq rnd adds ((Dbl.rows k).filter Dbl.notNan)) ((Dbl.rows k).filter Dbl.notNan).length,
    k, ?_⟩
  simp only [Dbl.rms, hk]

/-! ## The theorem -/

theorem mapRows_getD {m n : ℕ} (f : Fin m × Fin n → Fl) (q : Fin m × Fin n) :
    ((Spec.mapRows f).getD q.1 []).getD q.2 .nan = f q := by
  unfold Spec.mapRows
  simp [List.getD_eq_getElem?_getD]

theorem lineText_length_ge {r : List Fl} {x : Fl} (h : x ∈ r) : (fmt18 x).length ≤ (lineText r).length := by
  induction r with
  | nil => simp at h
  | cons y r ih =>
    unfold lineText at ih ⊢
    cases r with
    | nil =>
      rw [List.mem_singleton] at h
      subst h
      rw [List.map_singleton, List.intercalate_singleton]
    | cons z r =>
      rw [List.map_cons, List.map_cons, List.intercalate_cons_cons, List.length_append, List.length_append]
      rcases List.mem_cons.1 h with rfl | h
      · omega
      · have := ih h
        rw [List.map_cons] at this
        omega

theorem lineText_append {a b : List Fl} (ha : a ≠ []) (hb : b ≠ []) :
    lineText (a ++ b) = lineText a ++ " ".toList ++ lineText b := by
  induction a with
  | nil => exact absurd rfl ha
  | cons y a ih =>
    cases a with
    | nil =>
      cases b with
      | nil => exact absurd rfl hb
      | cons z b =>
        unfold lineText
        rw [List.cons_append, List.nil_append, List.map_cons, List.map_cons, List.intercalate_cons_cons, List.map_singleton,
          List.intercalate_singleton]
    | cons y' a =>
      have := ih (by simp)
      unfold lineText at this ⊢
      rw [List.cons_append, List.cons_append, List.map_cons, List.map_cons, List.intercalate_cons_cons, List.map_cons,
        List.map_cons, List.intercalate_cons_cons]
      rw [List.cons_append, List.map_cons, List.map_cons] at this
      rw [this]
      simp only [List.append_assoc]

theorem rowsText_length_le {r : List Fl} {rows : List (List Fl)} (h : r ∈ rows) :
    (lineText r).length + 1 ≤ (rowsText rows).length := by
  induction rows with
  | nil => simp at h
  | cons s rows ih =>
    rw [rowsText_cons, List.length_append, List.length_cons]
    rcases List.mem_cons.1 h with rfl | h
    · omega
    · have := ih h
      omega

/-- **C132.**  The columns `phase-rms` and `e_rs` that `table_pyoof_out` computes from a file of a square phase map of which
only a first part is there.  As soon as the last number has begun, they are those of the complete map, even if the last
number is wrong; before that there is an exception.  Wrong values do not occur. -/
theorem C132_phase {rd rnd : ℝ → Fl} (hrd : Spec.Reader rd) (h : Spec.Rounding rnd) (L : Dbl.LibmP)
    (adds : ∀ k, Dbl.Adds k) (header : Str) (hh : '\r' ∉ header) (N : ℕ) (hN : 2 ≤ N) (f : Fin N × Fin N → Fl)
    (hf : ∀ q, Spec.Double (f q)) :
    ∃ v w b b', Dbl.rms rnd adds (.d2 N N f) true = (.ok v, b) ∧ Dbl.eRs rnd L adds b true = (.ok w, b') ∧
      ∀ t, t <+: savetxt header (Spec.mapRows f) →
        ((savetxt header (Spec.mapRows f)).length ≤
            t.length + (fmt18 (f (⟨N - 1, by omega⟩, ⟨N - 1, by omega⟩))).length →
          phaseColumns rd rnd L adds t = .ok (v, w)) ∧
        (t.length + (fmt18 (f (⟨N - 1, by omega⟩, ⟨N - 1, by omega⟩))).length <
            (savetxt header (Spec.mapRows f)).length →
          phaseColumns rd rnd L adds t = .error .valueError ∨ phaseColumns rd rnd L adds t = .error .indexError) := by
  obtain ⟨v, g, hv⟩ := rms_square rnd adds f
  obtain ⟨z, g', hz⟩ := rms_square rnd adds g
  have hw : Dbl.eRs rnd L adds (.d2 N N g) true = (.ok (L.exp (Dbl.neg (L.powr z (.fin 2)))), .d2 N N g') := by
    unfold Dbl.eRs
    rw [hz]
    rfl
  refine ⟨v, _, _, _, hv, hw, ?_⟩
  set w := L.exp (Dbl.neg (L.powr z (.fin 2)))
  set last := f (⟨N - 1, by omega⟩, ⟨N - 1, by omega⟩) with hlast
  set rows := Spec.mapRows f with hrows
  have hcol : columns rnd L adds (.arr (.d2 N N f)) = .ok (v, w) := by
    simp only [columns, hv, hw]
    rfl
  have hlen0 : rows.length = N := by simp [hrows, Spec.mapRows]
  have hlen : ∀ r ∈ rows, r.length = N := by
    intro r hr
    obtain ⟨i, rfl⟩ := List.mem_ofFn.1 hr
    simp
  have hne : ∀ r ∈ rows, r ≠ [] := fun r hr h0 => by
    have := hlen r hr
    rw [h0] at this
    simp at this
    omega
  have hd : ∀ r ∈ rows, ∀ x ∈ r, Spec.Double x := by
    intro r hr x hx
    obtain ⟨i, rfl⟩ := List.mem_ofFn.1 hr
    obtain ⟨j, rfl⟩ := List.mem_ofFn.1 hx
    exact hf _
  -- the last entry of the last row
  have hend : ∀ pre a x, rows = pre ++ [a ++ [x]] → x = last := by
    intro pre a x e
    have h1 : pre.length = N - 1 := by
      have := hlen0
      rw [e] at this
      simp at this
      omega
    have h2 : a.length = N - 1 := by
      have := hlen (a ++ [x]) (by rw [e]; simp)
      simp at this
      omega
    have h3 := mapRows_getD f (⟨N - 1, by omega⟩, ⟨N - 1, by omega⟩)
    rw [← hrows, e] at h3
    rw [hlast, ← h3]
    simp only
    rw [List.getD_append_right _ _ _ _ h1.le, h1, Nat.sub_self, List.getD_cons_zero,
      List.getD_append_right _ _ _ _ h2.le, h2, Nat.sub_self, List.getD_cons_zero]
  have hsub : ∀ {pre post : List (List Fl)}, rows = pre ++ post → ∀ r ∈ pre, r ∈ rows := by
    intro pre post e r hr
    rw [e]
    simp [hr]
  -- a table with fewer rows
  have hfew : ∀ tab : List (List Fl), tab.length < N → (∀ r ∈ tab, r.length = N) →
      columns rnd L adds (squeeze tab) = .error .indexError := by
    intro tab h1 h2
    by_cases h3 : tab.length < 2
    · exact squeeze_one rnd L adds tab h3
    · rw [squeeze_map tab tab.length N (by omega) (by omega) rfl h2]
      exact columns_shape rnd L adds _ _ _ (by omega)
  intro t ht
  have hcols : ∀ tab, genfromtxt rd t = .ok tab → phaseColumns rd rnd L adds t = columns rnd L adds (squeeze tab) := by
    intro tab e
    unfold phaseColumns load
    rw [e]
    rfl
  -- the last row
  have hsplit : ∃ pre0 a0, rows = pre0 ++ [a0 ++ [last]] := by
    have h1 : rows ≠ [] := fun h0 => by
      rw [h0] at hlen0
      simp at hlen0
      omega
    obtain ⟨pre0, r0, e0⟩ : ∃ pre0 r0, rows = pre0 ++ [r0] :=
      ⟨rows.dropLast, rows.getLast h1, (List.dropLast_append_getLast h1).symm⟩
    have h2 : r0 ≠ [] := hne r0 (by rw [e0]; simp)
    obtain ⟨a0, x0, e1⟩ : ∃ a0 x0, r0 = a0 ++ [x0] :=
      ⟨r0.dropLast, r0.getLast h2, (List.dropLast_append_getLast h2).symm⟩
    have := hend pre0 a0 x0 (by rw [e0, e1])
    exact ⟨pre0, a0, by rw [e0, e1, this]⟩
  obtain ⟨pre0, a0, e0⟩ := hsplit
  have hrow0 : (fmt18 last).length ≤ (lineText (a0 ++ [last])).length := lineText_length_ge (by simp)
  have hfull : (savetxt header rows).length = (headText header).length + (rowsText rows).length := by
    rw [savetxt_eq, List.length_append]
  have hgood : ∀ tab : List (List Fl), genfromtxt rd t = .ok tab → tab.length = N → (∀ r ∈ tab, r.length = N) →
      (∀ q : Fin N × Fin N, ¬ ((q.1 : ℕ) = N - 1 ∧ (q.2 : ℕ) = N - 1) → (tab.getD q.1 []).getD q.2 .nan = f q) →
      phaseColumns rd rnd L adds t = .ok (v, w) := by
    intro tab e h1 h2 h3
    rw [hcols tab e, squeeze_map tab N N hN (by omega) h1 h2, ← hcol]
    exact columns_corner h L adds hN _ _ h3
  rcases savetxt_cut header hh rows hne t ht with
    ⟨pre, post, e1, e2, e3, e4⟩ | ⟨pre, a, x, b, post, w', u, e1, e2, e3, e4, e5, e6, e7⟩
  · have hg : genfromtxt rd t = .ok pre := by
      rw [genfromtxt_same rd t N (by
        rw [e2]
        intro r hr
        obtain ⟨r, hr', rfl⟩ := List.mem_map.1 hr
        rw [List.length_map]
        exact hlen r (hsub e1 r hr')), e2, read_table hrd pre fun r hr => hd r (hsub e1 r hr)]
    by_cases hp : post = []
    · have hpre : pre = rows := by rw [e1, hp, List.append_nil]
      have hpre0 : pre ≠ [] := fun h0 => by
        rw [hpre] at h0
        rw [h0] at hlen0
        simp at hlen0
        omega
      have htt := e4 hp hpre0
      refine ⟨fun _ => ?_, fun hlt => ?_⟩
      · exact hgood pre hg (by rw [hpre, hlen0]) (by rw [hpre]; exact hlen) fun q _ => by
          rw [hpre, hrows, mapRows_getD]
      · rw [htt] at hlt
        omega
    · have hshort : pre.length < N := by
        have := hlen0
        rw [e1, List.length_append] at this
        have : post.length ≠ 0 := fun h0 => hp (List.length_eq_zero_iff.1 h0)
        omega
      refine ⟨fun hge => ?_, fun _ => .inr ?_⟩
      · exfalso
        have hmem : (a0 ++ [last]) ∈ post := by
          have h1 : rows.getLast? = post.getLast? := by
            rw [e1, List.getLast?_append]
            obtain ⟨y, hy⟩ := Option.isSome_iff_exists.1 (List.getLast?_isSome.2 hp)
            rw [hy]
            rfl
          rw [e0, List.getLast?_concat] at h1
          exact List.mem_of_getLast? h1.symm
        have h1 := rowsText_length_le hmem
        rw [hfull, e1, rowsText_append, List.length_append] at hge
        omega
      · rw [hcols pre hg]
        exact hfew pre hshort fun r hr => hlen r (hsub e1 r hr)
  · have hr0 : (a ++ x :: b) ∈ rows := by rw [e1]; simp
    have ha : (a.map fmt18 ++ [w']).map (fun w => (parseFloat rd w).getD .nan) = a ++ [(parseFloat rd w').getD .nan] := by
      rw [List.map_append, read_rows hrd a fun y hy => hd _ hr0 y (by simp [hy])]
      rfl
    have hw0 : 1 ≤ w'.length := List.length_pos_iff.2 e2
    have hwx := e3.length_le
    have hal : a.length + 1 + b.length = N := by
      have := hlen _ hr0
      simp at this
      omega
    by_cases hb : b = []
    · subst hb
      have hg : genfromtxt rd t = .ok (pre ++ [a ++ [(parseFloat rd w').getD .nan]]) := by
        rw [genfromtxt_same rd t N (by
          rw [e5]
          intro r hr
          rcases List.mem_append.1 hr with hr | hr
          · obtain ⟨r, hr', rfl⟩ := List.mem_map.1 hr
            rw [List.length_map]
            exact hlen r (hsub e1 r hr')
          · rw [List.mem_singleton] at hr
            subst hr
            simp at hal
            simpa using hal), e5, List.map_append, read_table hrd pre fun r hr => hd r (hsub e1 r hr), List.map_singleton, ha]
      have htab : ∀ r ∈ pre ++ [a ++ [(parseFloat rd w').getD .nan]], r.length = N := by
        intro r hr
        rcases List.mem_append.1 hr with hr | hr
        · exact hlen r (hsub e1 r hr)
        · rw [List.mem_singleton] at hr
          subst hr
          simp at hal
          simpa using hal
      by_cases hp : post = []
      · subst hp
        have hxl := hend pre a x e1
        subst hxl
        have hpl : pre.length = N - 1 := by
          have := hlen0
          rw [e1] at this
          simp at this
          omega
        refine ⟨fun _ => ?_, fun hlt => ?_⟩
        · refine hgood _ hg (by simp [hpl]; omega) htab fun q hq => ?_
          rw [← mapRows_getD f q, ← hrows, e1]
          by_cases hq1 : (q.1 : ℕ) = N - 1
          · have hq2 : (q.2 : ℕ) < a.length := by
              have := q.2.isLt
              simp at hal
              by_contra hc
              exact hq ⟨hq1, by omega⟩
            rw [List.getD_append_right _ _ _ _ (by omega), List.getD_append_right _ _ _ _ (by omega), hq1, hpl, Nat.sub_self]
            simp only [List.getD_cons_zero]
            rw [List.getD_append _ _ _ _ hq2, List.getD_append _ _ _ _ hq2]
          · have hq1' : (q.1 : ℕ) < pre.length := by
              have := q.1.isLt
              omega
            rw [List.getD_append _ _ _ _ hq1', List.getD_append _ _ _ _ hq1']
        · exfalso
          have hu := e7 rfl
          have hlu : u.length + (fmt18 last).length = (lineText (a ++ [last])).length + w'.length := by
            rw [hu]
            cases a with
            | nil => simp [lineText, List.intercalate_singleton]; omega
            | cons y a =>
              rw [lineText_append (by simp) (by simp)]
              have : ∀ s : Str, (" ".toList.intercalate ((y :: a).map fmt18 ++ [s])).length =
                  (lineText (y :: a)).length + 1 + s.length := by
                intro s
                have key : ∀ (l : List Str) (s : Str), l ≠ [] → " ".toList.intercalate (l ++ [s]) =
                    " ".toList.intercalate l ++ " ".toList ++ s := by
                  intro l s hl
                  induction l with
                  | nil => exact absurd rfl hl
                  | cons p l ih =>
                    cases l with
                    | nil => rw [List.cons_append, List.nil_append, List.intercalate_cons_cons, List.intercalate_singleton,
                        List.intercalate_singleton]
                    | cons p' l =>
                      have := ih (by simp)
                      rw [List.cons_append, List.cons_append, List.intercalate_cons_cons, List.intercalate_cons_cons]
                      rw [List.cons_append] at this
                      rw [this]
                      simp only [List.append_assoc]
                rw [key _ s (by simp), List.length_append, List.length_append]
                rfl
              rw [this]
              have e : lineText [last] = fmt18 last := by
                simp [lineText, List.intercalate_singleton]
              rw [e, List.length_append, List.length_append]
              have e' : (" ".toList : List Char).length = 1 := rfl
              omega
          have ht' : t.length = (headText header).length + ((rowsText pre).length + u.length) := by
            rw [e4, List.length_append, List.length_append]
          have hrl : (rowsText rows).length = (rowsText pre).length + ((lineText (a ++ [last])).length + 1) := by
            rw [e1, rowsText_append, List.length_append, rowsText_cons, List.length_append, List.length_cons]
            simp [rowsText]
          omega
      · have hpostl : post.length ≠ 0 := fun h0 => hp (List.length_eq_zero_iff.1 h0)
        refine ⟨fun hge => ?_, fun _ => .inr ?_⟩
        · exfalso
          have hmem : (a0 ++ [last]) ∈ post := by
            have h1 : rows.getLast? = post.getLast? := by
              rw [e1, List.getLast?_append, List.getLast?_cons]
              obtain ⟨y, hy⟩ := Option.isSome_iff_exists.1 (List.getLast?_isSome.2 hp)
              rw [hy]
              rfl
            rw [e0, List.getLast?_concat] at h1
            exact List.mem_of_getLast? h1.symm
          have h1 := rowsText_length_le hmem
          have hul := e6.length_le
          have e' : (" ".toList : List Char).length = 1 := rfl
          rw [List.length_append, e'] at hul
          have ht' : t.length = (headText header).length + ((rowsText pre).length + u.length) := by
            rw [e4, List.length_append, List.length_append]
          have hrl : (rowsText rows).length = (rowsText pre).length +
              ((lineText (a ++ [x])).length + 1 + (rowsText post).length) := by
            rw [e1, rowsText_append, List.length_append, rowsText_cons, List.length_append, List.length_cons]
            omega
          omega
        · rw [hcols _ hg]
          refine hfew _ ?_ htab
          have := hlen0
          rw [e1] at this
          simp at this ⊢
          omega
    -- a row that is too short
    · have hbl : b.length ≠ 0 := fun h0 => hb (List.length_eq_zero_iff.1 h0)
      refine ⟨fun hge => ?_, fun _ => ?_⟩
      · exfalso
        have hul := e6.length_le
        have e' : (" ".toList : List Char).length = 1 := rfl
        rw [List.length_append, e'] at hul
        have hline : (lineText (a ++ x :: b)).length = (lineText (a ++ [x])).length + 1 + (lineText b).length := by
          rw [show a ++ x :: b = (a ++ [x]) ++ b by simp, lineText_append (by simp) hb, List.length_append,
            List.length_append, e']
        have ht' : t.length = (headText header).length + ((rowsText pre).length + u.length) := by
          rw [e4, List.length_append, List.length_append]
        have hrl : (rowsText rows).length = (rowsText pre).length +
            ((lineText (a ++ x :: b)).length + 1 + (rowsText post).length) := by
          rw [e1, rowsText_append, List.length_append, rowsText_cons, List.length_append, List.length_cons]
          omega
        have hlast2 : (fmt18 last).length ≤ (lineText b).length + (rowsText post).length := by
          by_cases hp : post = []
          · subst hp
            obtain ⟨b', y, rfl⟩ : ∃ b' y, b = b' ++ [y] :=
              ⟨b.dropLast, b.getLast hb, (List.dropLast_append_getLast hb).symm⟩
            have := hend pre (a ++ x :: b') y (by rw [e1]; simp)
            have h1 : (fmt18 y).length ≤ (lineText (b' ++ [y])).length := lineText_length_ge (by simp)
            rw [this] at h1
            rw [this]
            omega
          · have hmem : (a0 ++ [last]) ∈ post := by
              have h1 : rows.getLast? = post.getLast? := by
                rw [e1, List.getLast?_append, List.getLast?_cons]
                obtain ⟨y, hy⟩ := Option.isSome_iff_exists.1 (List.getLast?_isSome.2 hp)
                rw [hy]
                rfl
              rw [e0, List.getLast?_concat] at h1
              exact List.mem_of_getLast? h1.symm
            have h1 := rowsText_length_le hmem
            omega
        omega
      · cases pre with
        | nil =>
          right
          rw [hcols [a ++ [(parseFloat rd w').getD .nan]] (by
            rw [genfromtxt_same rd t (a.length + 1) (by rw [e5]; simp), e5, List.map_nil, List.nil_append,
              List.map_singleton, ha])]
          exact squeeze_one rnd L adds _ (by simp)
        | cons r pre =>
          left
          have hg : genfromtxt rd t = .error .valueError := by
            refine genfromtxt_other (b := a.map fmt18 ++ [w']) rd t _ e5 (by simp) ?_
            have h1 := hlen r (hsub e1 r (by simp))
            simp only [List.length_append, List.length_map, List.length_cons, List.length_nil]
            omega
          unfold phaseColumns load
          rw [hg]
          rfl

/-! ## The shape of a complete file -/

/-- **C132.**  The array that `np.genfromtxt` returns for a complete file of `m` rows and `n` columns: two-dimensional and
entry by entry the one that was stored, if there are two rows and columns at least; a single row or a single column comes
back as a one-dimensional array, a single number as a number, and a file without rows as an empty array. -/
theorem C132_shape {rd : ℝ → Fl} (hrd : Spec.Reader rd) (header : Str) (hh : '\r' ∉ header) (m n : ℕ)
    (f : Fin m × Fin n → Fl) (hf : ∀ q, Spec.Double (f q)) (hn : n ≠ 0) :
    (2 ≤ m → 2 ≤ n → load rd (savetxt header (Spec.mapRows f)) = .ok (.arr (.d2 m n f))) ∧
    (∀ i : Fin m, m = 1 → 2 ≤ n → load rd (savetxt header (Spec.mapRows f)) = .ok (.arr (.d1 n fun j => f (i, j)))) ∧
    (∀ j : Fin n, 2 ≤ m → n = 1 → load rd (savetxt header (Spec.mapRows f)) = .ok (.arr (.d1 m fun i => f (i, j)))) ∧
    (∀ q, m = 1 → n = 1 → load rd (savetxt header (Spec.mapRows f)) = .ok (.d0 (f q))) ∧
    (m = 0 → load rd (savetxt header (Spec.mapRows f)) = .ok (.arr (.d1 0 Fin.elim0))) := by
  have hlen0 : (Spec.mapRows f).length = m := by simp [Spec.mapRows]
  have hlen : ∀ r ∈ Spec.mapRows f, r.length = n := by
    intro r hr
    obtain ⟨i, rfl⟩ := List.mem_ofFn.1 hr
    simp
  have hload : load rd (savetxt header (Spec.mapRows f)) = .ok (squeeze (Spec.mapRows f)) := by
    unfold load
    rw [C92_exact hrd header hh (Spec.mapRows f) n hn hlen (by
      intro r hr x hx
      obtain ⟨i, rfl⟩ := List.mem_ofFn.1 hr
      obtain ⟨j, rfl⟩ := List.mem_ofFn.1 hx
      exact hf _)]
    rfl
  rw [hload]
  refine ⟨fun h1 h2 => ?_, fun i h1 h2 => ?_, fun j h1 h2 => ?_, fun q h1 h2 => ?_, fun h1 => ?_⟩
  · rw [squeeze_map _ m n h1 (by omega) hlen0 hlen]
    simp only [mapRows_getD]
  · subst h1
    obtain ⟨k, rfl⟩ : ∃ k, n = k + 2 := ⟨n - 2, by omega⟩
    have e : Spec.mapRows f = [List.ofFn fun j => f (i, j)] := by
      simp [Spec.mapRows, Subsingleton.elim i 0]
    have key : ∀ (l : List Fl) (g : Fin (k + 2) → Fl), l = List.ofFn g → squeeze [l] = .arr (.d1 (k + 2) g) := by
      intro l g hl
      have hk : l.length = k + 2 := by rw [hl, List.length_ofFn]
      have hg : ∀ i : Fin (k + 2), g i = l.get (i.cast hk.symm) := by
        intro i
        subst hl
        rw [List.get_ofFn]
        rfl
      match l, hk with
      | x :: y :: l, hk =>
        have hk' : l.length = k := by simpa using hk
        subst hk'
        rw [squeeze]
        · congr 2
          funext i
          rw [hg i]
          rfl
        · intro x' h
          simp at h
    rw [e, key _ _ rfl]
  · subst h2
    match m, h1, f, hlen0, hlen, j with
    | k + 2, h1, f, hlen0, hlen, j =>
      have e : Spec.mapRows f = [f (0, 0)] :: [f (1, 0)] :: List.ofFn fun i : Fin k => [f (i.succ.succ, 0)] := by
        simp [Spec.mapRows, List.ofFn_succ]
      have hj : j = 0 := Subsingleton.elim j 0
      subst hj
      have key : ∀ (r s : List Fl) (rs : List (List Fl)), r.length = 1 → ∀ M, (r :: s :: rs).length = M →
          squeeze (r :: s :: rs) = .arr (.d1 M fun i => ((r :: s :: rs).getD i []).getD 0 .nan) := by
        intro r s rs hr M hM
        subst hM
        rw [squeeze, if_pos hr]
      have h3 := key [f (0, 0)] [f (1, 0)] (List.ofFn fun i : Fin k => [f (i.succ.succ, 0)]) rfl (k + 2) (by simp)
      rw [e, h3, ← e]
      congr 3
      funext i
      exact mapRows_getD f (i, 0)
  · subst h1 h2
    have e : Spec.mapRows f = [[f q]] := by
      simp [Spec.mapRows, Subsingleton.elim q (0, 0)]
    rw [e]
    rfl
  · subst h1
    have e : Spec.mapRows f = [] := by simp [Spec.mapRows]
    rw [e, squeeze]

/-! ## A wrong number -/

theorem intercalate_concat (l : List Str) (s : Str) (hl : l ≠ []) :
    " ".toList.intercalate (l ++ [s]) = " ".toList.intercalate l ++ " ".toList ++ s := by
  induction l with
  | nil => exact absurd rfl hl
  | cons p l ih =>
    cases l with
    | nil => rw [List.cons_append, List.nil_append, List.intercalate_cons_cons, List.intercalate_singleton,
        List.intercalate_singleton]
    | cons p' l =>
      have := ih (by simp)
      rw [List.cons_append, List.cons_append, List.intercalate_cons_cons, List.intercalate_cons_cons]
      rw [List.cons_append] at this
      rw [this]
      simp only [List.append_assoc]

/-- The text of a number up to the exponent. -/
theorem parse_mantissa (rd : ℝ → Fl) {ds : Str} (hd : ∀ c ∈ ds, IsDigit c) (hlen : ds.length = 19) :
    parseFloat rd (ds.take 1 ++ '.' :: ds.drop 1) = some (rd ((digitsVal ds : ℝ) / 10 ^ 18)) ∧
    parseFloat rd ('-' :: (ds.take 1 ++ '.' :: ds.drop 1)) = some (rd (-((digitsVal ds : ℝ) / 10 ^ 18))) := by
  have h1 : ∀ c ∈ ds.take 1, IsDigit c := fun c hc => hd c (List.mem_of_mem_take hc)
  have h2 : ∀ c ∈ ds.drop 1, IsDigit c := fun c hc => hd c (List.mem_of_mem_drop hc)
  have hm : ∀ c ∈ ds.take 1 ++ '.' :: ds.drop 1, (decide (c ≠ 'e')) = true := by
    intro c hc
    rw [decide_eq_true_eq]
    rcases List.mem_append.1 hc with hc | hc
    · exact digit_ne (h1 c hc) _ (by decide)
    · rcases List.mem_cons.1 hc with rfl | hc
      · decide
      · exact digit_ne (h2 c hc) _ (by decide)
  have hp' : ∀ c ∈ ds.take 1, (decide (c ≠ '.')) = true := fun c hc => by
    rw [decide_eq_true_eq]; exact digit_ne (h1 c hc) _ (by decide)
  have hp : parseDec (ds.take 1 ++ '.' :: ds.drop 1) = some ((digitsVal ds : ℝ) / 10 ^ 18) := by
    unfold parseDec
    rw [List.takeWhile_eq_self_iff.2 hm, List.dropWhile_eq_nil_iff.2 hm]
    simp only [takeWhile_stop hp' (show decide ('.' ≠ '.') = false by simp),
      dropWhile_stop hp' (show decide ('.' ≠ '.') = false by simp), List.drop_succ_cons, List.drop_zero,
      List.take_append_drop, Option.bind_eq_bind, Option.bind_some, Option.pure_def]
    rw [parseNat_digits hd (by rintro rfl; simp at hlen)]
    simp only [Option.bind_some, List.length_drop, hlen]
    rw [div_eq_mul_inv, ← zpow_natCast, ← zpow_neg]
    norm_num
  cases ds with
  | nil => simp at hlen
  | cons c ds =>
    have hc : IsDigit c := hd c (by simp)
    have es : List.take 1 (c :: ds) ++ '.' :: List.drop 1 (c :: ds) = c :: ('.' :: ds) := by simp
    rw [es] at hp ⊢
    have a1 := digit_ne hc 'n' (by decide)
    have a2 := digit_ne hc 'i' (by decide)
    have a3 := digit_ne hc '-' (by decide)
    have a4 := digit_ne hc '+' (by decide)
    constructor
    · unfold parseFloat
      rw [if_neg (by simp [a1]), if_neg (by simp [a2]), if_neg (by simp [a3])]
      split
      · rename_i heq; simp only [List.cons.injEq] at heq; exact absurd heq.1 a3
      · rename_i heq; simp only [List.cons.injEq] at heq; exact absurd heq.1 a4
      · rw [hp]; rfl
    · unfold parseFloat
      rw [if_neg (by simp), if_neg (by simp), if_neg (by simp [a2])]
      simp only [hp, Option.map_some]

/-- A decimal number outside (-1, 1) is not read as a number in it. -/
theorem reader_ge_one {rd : ℝ → Fl} (hrd : Spec.Reader rd) {y : ℝ} (h1 : 1 ≤ |y|) (h2 : |y| ≤ 10) :
    ∃ z, rd y = .fin z ∧ 1 ≤ |z| := by
  obtain ⟨z, hz, -, hz2⟩ := hrd y (h2.trans_lt (by
    have := isDouble_le (isDouble_nat (n := 10) (by norm_num))
    rwa [Nat.abs_cast, Nat.cast_ofNat] at this))
  refine ⟨z, hz, ?_⟩
  by_contra hlt
  rw [not_le, abs_lt] at hlt
  have m1 : Spec.IsDouble (-1) := ⟨-1, 0, by norm_num, by norm_num, by norm_num, by simp⟩
  rcases le_abs.1 h1 with h | h
  · have := hz2 1 isDouble_one
    rw [abs_of_nonneg (by linarith), abs_of_nonneg (by linarith)] at this
    linarith
  · have := hz2 (-1) m1
    rw [abs_of_nonpos (by linarith), abs_of_nonpos (by linarith)] at this
    linarith

/-- The file up to a first part of the last number. -/
theorem cut_last {rd : ℝ → Fl} (hrd : Spec.Reader rd) (header : Str) (hh : '\r' ∉ header) (pre : List (List Fl))
    (a : List Fl) (x : Fl) (hlen : ∀ r ∈ pre, r.length = a.length + 1) (hd : ∀ r ∈ pre, ∀ x ∈ r, Spec.Double x)
    (hda : ∀ x ∈ a, Spec.Double x) {w : Str} (hw0 : w ≠ []) (hwp : w <+: fmt18 x) :
    ∃ t, t <+: savetxt header (pre ++ [a ++ [x]]) ∧
      genfromtxt rd t = .ok (pre ++ [a ++ [(parseFloat rd w).getD .nan]]) := by
  have hwc : ∀ c ∈ w, c ≠ ' ' ∧ c ≠ '\t' ∧ c ≠ '\n' ∧ c ≠ '\r' ∧ c ≠ '#' := fun c hc => fmt18_ne (hwp.subset hc)
  set u := " ".toList.intercalate (a.map fmt18 ++ [w]) with hu
  have hmem : ∀ w' ∈ a.map fmt18 ++ [w], w' ≠ [] ∧ ∀ c ∈ w', c ≠ ' ' ∧ c ≠ '\t' ∧ c ≠ '\n' ∧ c ≠ '\r' ∧ c ≠ '#' := by
    intro w' hw'
    rcases List.mem_append.1 hw' with h | h
    · obtain ⟨y, -, rfl⟩ := List.mem_map.1 h
      exact ⟨fmt18_ne_nil y, fun c hc => fmt18_ne hc⟩
    · rw [List.mem_singleton] at h
      subst h
      exact ⟨hw0, hwc⟩
  have huw : words u = a.map fmt18 ++ [w] :=
    words_spaced _ fun w' hw' => ⟨(hmem w' hw').1, fun c hc => ⟨((hmem w' hw').2 c hc).1, ((hmem w' hw').2 c hc).2.1⟩⟩
  have huc : ∀ c ∈ u, c ≠ '\n' ∧ c ≠ '\r' ∧ c ≠ '#' := by
    intro c hc
    rcases mem_intercalate hc with h | ⟨w', hw', hcw⟩
    · have : c = ' ' := by simpa using h
      subst this
      decide
    · exact ((hmem w' hw').2 c hcw).2.2
  have hul : u <+: lineText (a ++ [x]) := by
    unfold lineText
    rw [List.map_append, List.map_singleton, hu]
    by_cases ha : a = []
    · subst ha
      rw [List.map_nil, List.nil_append, List.nil_append, List.intercalate_singleton, List.intercalate_singleton]
      exact hwp
    · rw [intercalate_concat _ _ (by simpa using ha), intercalate_concat _ _ (by simpa using ha),
        List.prefix_append_right_inj]
      exact hwp
  have hrows : ∀ (pre : List (List Fl)) (_ : ∀ r ∈ pre, r.length = a.length + 1),
      csvRows (rowsText pre ++ u) = (pre.map fun r => r.map fmt18) ++ [a.map fmt18 ++ [w]] := by
    intro pre hl
    induction pre with
    | nil =>
      rw [show rowsText [] = [] from rfl, List.nil_append, csvRows_last huc, huw, if_neg (by simp)]
      rfl
    | cons r pre ih =>
      have hr : r ≠ [] := fun h0 => by
        have := hl r (by simp)
        rw [h0] at this
        simp at this
      rw [rowsText_cons, List.append_assoc, List.cons_append, csvRows_first (fun c hc => lineText_chars hc),
        words_lineText, if_neg (by simpa using hr), ih fun r h => hl r (by simp [h])]
      rfl
  refine ⟨headText header ++ (rowsText pre ++ u), ?_, ?_⟩
  · rw [savetxt_eq, List.prefix_append_right_inj, rowsText_append, List.prefix_append_right_inj, rowsText_cons]
    exact List.prefix_append_of_prefix hul
  · have hc : csvRows (headText header ++ (rowsText pre ++ u)) =
        (pre.map fun r => r.map fmt18) ++ [a.map fmt18 ++ [w]] := by
      rw [csvRows_head header hh, hrows pre hlen]
    rw [genfromtxt_same rd _ (a.length + 1) (by
      rw [hc]
      intro r hr
      rcases List.mem_append.1 hr with hr | hr
      · obtain ⟨r, hr', rfl⟩ := List.mem_map.1 hr
        rw [List.length_map]
        exact hlen r hr'
      · rw [List.mem_singleton] at hr
        subst hr
        simp), hc, List.map_append, read_table hrd pre hd, List.map_singleton, List.map_append, read_rows hrd a hda,
      List.map_singleton]

/-- **C132.**  For other files it is different: whenever the last number of a table is not zero, there is a first part of the
file that `np.genfromtxt` accepts, with all rows and columns, and that has another last number, of absolute value at least
one. -/
theorem C132_wrong {rd : ℝ → Fl} (hrd : Spec.Reader rd) (header : Str) (hh : '\r' ∉ header) (pre : List (List Fl))
    (a : List Fl) (x : ℝ) (hlen : ∀ r ∈ pre, r.length = a.length + 1) (hd : ∀ r ∈ pre, ∀ x ∈ r, Spec.Double x)
    (hda : ∀ x ∈ a, Spec.Double x) (hx0 : x ≠ 0) :
    ∃ t v, t <+: savetxt header (pre ++ [a ++ [.fin x]]) ∧
      genfromtxt rd t = .ok (pre ++ [a ++ [.fin v]]) ∧ 1 ≤ |v| := by
  obtain ⟨d1, d2, -⟩ := sci_spec hx0
  set ds := decNat (sci x).1 with hds
  have hdig : ∀ c ∈ ds, IsDigit c := fun c hc => decNat_isDigit hc
  have hl19 : ds.length = 19 := decNat_length19 d1 d2
  have hval : digitsVal ds = (sci x).1 := digitsVal_decNat _
  have hb1 : (1 : ℝ) ≤ |(((sci x).1 : ℕ) : ℝ) / 10 ^ 18| := by
    rw [abs_of_nonneg (by positivity), le_div_iff₀ (by positivity), one_mul]
    exact_mod_cast d1
  have hb2 : |(((sci x).1 : ℕ) : ℝ) / 10 ^ 18| ≤ 10 := by
    rw [abs_of_nonneg (by positivity), div_le_iff₀ (by positivity)]
    have : (((sci x).1 : ℕ) : ℝ) ≤ 10 ^ 19 := by exact_mod_cast d2.le
    linarith
  have hw : ∃ w v, w ≠ [] ∧ w <+: fmt18 (.fin x) ∧ parseFloat rd w = some (.fin v) ∧ 1 ≤ |v| := by
    have hp := parse_mantissa rd hdig hl19
    rw [hval] at hp
    have hs : ds.take 1 ++ '.' :: ds.drop 1 <+: sciText ds (sci x).2 := by
      unfold sciText
      exact List.prefix_append _ _
    by_cases hneg : x < 0
    · obtain ⟨z, hz, hz1⟩ := reader_ge_one hrd (y := -((((sci x).1 : ℕ) : ℝ) / 10 ^ 18)) (by rw [abs_neg]; exact hb1)
        (by rw [abs_neg]; exact hb2)
      refine ⟨_, z, List.cons_ne_nil _ _, ?_, hp.2.trans (by rw [hz]), hz1⟩
      have hf : fmt18 (.fin x) = '-' :: sciText ds (sci x).2 := by simp [fmt18, hx0, hneg, hds]
      rw [hf]
      exact (List.prefix_cons_inj _).2 hs
    · obtain ⟨z, hz, hz1⟩ := reader_ge_one hrd hb1 hb2
      refine ⟨_, z, by simp, ?_, hp.1.trans (by rw [hz]), hz1⟩
      have hf : fmt18 (.fin x) = sciText ds (sci x).2 := by simp [fmt18, hx0, hneg, hds]
      rw [hf]
      exact hs
  obtain ⟨w, v, hw0, hwp, hwv, hv⟩ := hw
  obtain ⟨t, ht, hg⟩ := cut_last hrd header hh pre a (.fin x) hlen hd hda hw0 hwp
  exact ⟨t, v, ht, by rw [hg, hwv]; rfl, hv⟩

/-- The text of a number up to the letter e is no number. -/
theorem parse_e (rd : ℝ → Fl) {s : Str} (hs : 'e' ∉ s) (hn : s.head? ≠ some '+') :
    parseFloat rd (s ++ ['e']) = none ∧ parseFloat rd ('-' :: (s ++ ['e'])) = none := by
  have hm : ∀ (s : Str), 'e' ∉ s → parseDec (s ++ ['e']) = none := by
    intro s hs
    have hs' : ∀ c ∈ s, (decide (c ≠ 'e')) = true := fun c hc => by
      rw [decide_eq_true_eq]; rintro rfl; exact hs hc
    unfold parseDec
    rw [dropWhile_stop hs' (show decide ('e' ≠ 'e') = false by simp)]
    rfl
  have hlast : ∀ (s t : Str) (c : Char), t.getLast? = some c → c ≠ 'e' → s ++ ['e'] ≠ t := by
    rintro s t c h hc rfl
    rw [List.getLast?_concat] at h
    exact hc (Option.some.inj h).symm
  constructor
  · unfold parseFloat
    rw [if_neg (hlast s _ 'n' rfl (by decide)), if_neg (hlast s _ 'f' rfl (by decide)),
      if_neg (hlast s _ 'f' rfl (by decide))]
    split
    · rename_i t heq
      cases s with
      | nil => simp at heq
      | cons c s =>
        simp only [List.cons_append, List.cons.injEq] at heq
        rw [← heq.2, hm s fun h => hs (by simp [h])]
        rfl
    · rename_i t heq
      cases s with
      | nil => simp at heq
      | cons c s =>
        simp only [List.cons_append, List.cons.injEq] at heq
        exact absurd (by simp [heq.1]) hn
    · rw [hm s hs]
      rfl
  · unfold parseFloat
    rw [if_neg (by simp), if_neg (by simp), if_neg (by
      have := hlast ('-' :: s) "-inf".toList 'f' rfl (by decide)
      simpa using this)]
    simp only [hm s hs, Option.map_none]

/-- **C132.**  And whatever the last number is, there is a first part of the file that is accepted with all rows and
columns and in which it is nan. -/
theorem C132_nan {rd : ℝ → Fl} (hrd : Spec.Reader rd) (header : Str) (hh : '\r' ∉ header) (pre : List (List Fl))
    (a : List Fl) (x : Fl) (hlen : ∀ r ∈ pre, r.length = a.length + 1) (hd : ∀ r ∈ pre, ∀ x ∈ r, Spec.Double x)
    (hda : ∀ x ∈ a, Spec.Double x) :
    ∃ t, t <+: savetxt header (pre ++ [a ++ [x]]) ∧ genfromtxt rd t = .ok (pre ++ [a ++ [.nan]]) := by
  suffices h : ∃ w, w ≠ [] ∧ w <+: fmt18 x ∧ (parseFloat rd w).getD .nan = .nan by
    obtain ⟨w, hw0, hwp, hwv⟩ := h
    obtain ⟨t, ht, hg⟩ := cut_last hrd header hh pre a x hlen hd hda hw0 hwp
    exact ⟨t, ht, by rw [hg, hwv]⟩
  have hsci : ∀ (ds : Str) (e : ℤ), (∀ c ∈ ds, IsDigit c) →
      (ds.take 1 ++ '.' :: ds.drop 1) ++ ['e'] <+: sciText ds e ∧
      parseFloat rd ((ds.take 1 ++ '.' :: ds.drop 1) ++ ['e']) = none ∧
      parseFloat rd ('-' :: ((ds.take 1 ++ '.' :: ds.drop 1) ++ ['e'])) = none := by
    intro ds e hds
    refine ⟨?_, parse_e rd ?_ ?_⟩
    · unfold sciText
      rw [List.prefix_append_right_inj]
      exact ⟨expText e, rfl⟩
    · intro hc
      rcases List.mem_append.1 hc with hc | hc
      · exact digit_ne (hds _ (List.mem_of_mem_take hc)) 'e' (by decide) rfl
      · rcases List.mem_cons.1 hc with hc | hc
        · revert hc; decide
        · exact digit_ne (hds _ (List.mem_of_mem_drop hc)) 'e' (by decide) rfl
    · cases ds with
      | nil => simp
      | cons c ds =>
        have := digit_ne (hds c (by simp)) '+' (by decide)
        simpa using this
  have hword : ∀ w : Str, w ≠ "nan".toList → w ≠ "inf".toList → w ≠ "-inf".toList → w.head? ≠ some '-' →
      w.head? ≠ some '+' → parseDec w = none → parseFloat rd w = none := by
    intro w h1 h2 h3 h4 h5 h6
    unfold parseFloat
    rw [if_neg h1, if_neg h2, if_neg h3]
    split
    · simp at h4
    · simp at h5
    · rw [h6]; rfl
  cases x with
  | nan => exact ⟨"nan".toList, by decide, List.prefix_refl _, by simp [parseFloat]⟩
  | pinf =>
    refine ⟨['i'], by decide, ⟨"nf".toList, rfl⟩, ?_⟩
    rw [hword _ (by decide) (by decide) (by decide) (by decide) (by decide) (by
      have : parseNat ['i'] = none := by decide
      simp [parseDec, this])]
    rfl
  | ninf =>
    refine ⟨['-'], by decide, ⟨"inf".toList, rfl⟩, ?_⟩
    have : parseFloat rd ['-'] = none := by
      unfold parseFloat
      rw [if_neg (by decide), if_neg (by decide), if_neg (by decide)]
      have : parseNat [] = none := by decide
      simp [parseDec, this]
    rw [this]
    rfl
  | fin x =>
    by_cases hx0 : x = 0
    · obtain ⟨h1, h2, -⟩ := hsci (List.replicate 19 '0') 0 (fun c hc => by
        rw [List.eq_of_mem_replicate hc]; decide)
      refine ⟨(List.take 1 (List.replicate 19 '0') ++ '.' :: List.drop 1 (List.replicate 19 '0')) ++ ['e'], by simp, ?_,
        by rw [h2]; rfl⟩
      have hf : fmt18 (.fin x) = sciText (List.replicate 19 '0') 0 := by simp [fmt18, hx0]
      rw [hf]
      exact h1
    · obtain ⟨h1, h2, h3⟩ := hsci (decNat (sci x).1) (sci x).2 fun c hc => decNat_isDigit hc
      by_cases hneg : x < 0
      · refine ⟨_, List.cons_ne_nil _ _, ?_, by rw [h3]; rfl⟩
        have hf : fmt18 (.fin x) = '-' :: sciText (decNat (sci x).1) (sci x).2 := by simp [fmt18, hx0, hneg]
        rw [hf]
        exact (List.prefix_cons_inj _).2 h1
      · refine ⟨(List.take 1 (decNat (sci x).1) ++ '.' :: List.drop 1 (decNat (sci x).1)) ++ ['e'], by simp, ?_,
          by rw [h2]; rfl⟩
        have hf : fmt18 (.fin x) = sciText (decNat (sci x).1) (sci x).2 := by simp [fmt18, hx0, hneg]
        rw [hf]
        exact h1

/-! ## Cases -/

/-- A map of three by three pixels: the last five characters of the file are missing, and the file is empty. -/
example : ∃ rd rnd, Spec.Reader rd ∧ Spec.Rounding rnd ∧ ∀ (L : Dbl.LibmP) (adds : ∀ k, Dbl.Adds k),
    let f : Fin 3 × Fin 3 → Fl := fun q => if q = (1, 1) then .fin 5 else if q = (0, 1) then .nan else .fin 0
    let s := savetxt "Phase obs".toList (Spec.mapRows f)
    phaseColumns rd rnd L adds (s.take (s.length - 5)) = phaseColumns rd rnd L adds s ∧
      (∃ c, phaseColumns rd rnd L adds s = .ok c) ∧
      (phaseColumns rd rnd L adds [] = .error .valueError ∨ phaseColumns rd rnd L adds [] = .error .indexError) := by
  obtain ⟨rnd, hr⟩ := rounding_exists
  refine ⟨rnd, rnd, hr.1, hr, fun L adds => ?_⟩
  intro f s
  have h5 : Spec.IsDouble 5 := by
    have := isDouble_nat (n := 5) (by norm_num)
    exact_mod_cast this
  obtain ⟨v, w, b, b', -, -, h⟩ := C132_phase hr.1 hr L adds "Phase obs".toList (by decide) 3 (by norm_num) f (by
    intro q
    simp only [f]
    split_ifs
    · exact h5
    · trivial
    · exact isDouble_zero)
  have hlast : (fmt18 (f (⟨3 - 1, by omega⟩, ⟨3 - 1, by omega⟩))).length = 24 := by
    have : f (⟨3 - 1, by omega⟩, ⟨3 - 1, by omega⟩) = .fin 0 := by
      simp only [f]
      rw [if_neg (by decide), if_neg (by decide)]
    rw [this]
    simp [fmt18, sciText, expText]
    decide
  have h1 := (h (s.take (s.length - 5)) (List.take_prefix _ _)).1 (by
    rw [hlast, List.length_take]
    show s.length ≤ _
    omega)
  have h2 := (h s (List.prefix_refl _)).1 (by show s.length ≤ _; omega)
  refine ⟨h1.trans h2.symm, ⟨_, h2⟩, (h [] List.nil_prefix).2 ?_⟩
  rw [hlast]
  have hk : 25 ≤ (rowsText (Spec.mapRows f)).length := by
    have h3 : f (2, 2) ∈ (List.ofFn fun j => f (2, j)) := List.mem_ofFn.2 ⟨2, rfl⟩
    have h4 := lineText_length_ge h3
    have h5 := rowsText_length_le (r := List.ofFn fun j => f (2, j)) (rows := Spec.mapRows f) (List.mem_ofFn.2 ⟨2, rfl⟩)
    have h6 : (fmt18 (f (2, 2))).length = 24 := hlast
    omega
  rw [savetxt_eq, List.length_append]
  simp only [List.length_nil]
  omega

/-- A column of two numbers, and a row of two. -/
example : ∃ rd, Spec.Reader rd ∧
    load rd (savetxt "Grad".toList [[.fin 1], [.fin 5]]) = .ok (.arr (.d1 2 ![.fin 1, .fin 5])) ∧
    load rd (savetxt "Grad".toList [[.fin 1, .fin 5]]) = .ok (.arr (.d1 2 ![.fin 1, .fin 5])) := by
  obtain ⟨rd, hrd⟩ := reader_exists
  have h5 : Spec.IsDouble 5 := by
    have := isDouble_nat (n := 5) (by norm_num)
    exact_mod_cast this
  have h1 := (C132_shape hrd "Grad".toList (by decide) 2 1 (fun q => ![.fin 1, .fin 5] q.1) (by
    rintro ⟨i, j⟩
    fin_cases i
    · exact isDouble_one
    · exact h5) (by norm_num)).2.2.1 0 le_rfl rfl
  have h2 := (C132_shape hrd "Grad".toList (by decide) 1 2 (fun q => ![.fin 1, .fin 5] q.2) (by
    rintro ⟨i, j⟩
    fin_cases j
    · exact isDouble_one
    · exact h5) (by norm_num)).2.1 0 rfl le_rfl
  refine ⟨rd, hrd, ?_, ?_⟩
  · simpa [Spec.mapRows, List.ofFn_succ] using h1
  · simpa [Spec.mapRows, List.ofFn_succ] using h2

/-- A table of two rows that ends with 1/512. -/
example : ∃ rd t v, Spec.Reader rd ∧ t <+: savetxt "Normalised beam obs".toList [[.fin 1, .nan], [.fin 0, .fin (1 / 512)]] ∧
    genfromtxt rd t = .ok [[.fin 1, .nan], [.fin 0, .fin v]] ∧ 1 ≤ |v| := by
  obtain ⟨rd, hrd⟩ := reader_exists
  obtain ⟨t, v, h1, h2, h3⟩ := C132_wrong hrd "Normalised beam obs".toList (by decide) [[.fin 1, .nan]] [.fin 0] (1 / 512)
    (by simp) (by
      intro r hr x hx
      rw [List.mem_singleton] at hr
      subst hr
      simp only [List.mem_cons, List.not_mem_nil, or_false] at hx
      rcases hx with rfl | rfl
      · exact isDouble_one
      · trivial) (by
      intro x hx
      rw [List.mem_singleton] at hx
      subst hx
      exact isDouble_zero) (by norm_num)
  exact ⟨rd, t, v, hrd, h1, h2, h3⟩

/-- The gradient of a fit with two parameters, of which the second is read as nan. -/
example : ∃ rd, Spec.Reader rd ∧ ∃ t, t <+: savetxt "Grad".toList [[.fin 1], [.pinf]] ∧
    load rd t = .ok (.arr (.d1 2 fun i => ([[Fl.fin 1], [.nan]].getD i []).getD 0 .nan)) := by
  obtain ⟨rd, hrd⟩ := reader_exists
  obtain ⟨t, ht, hg⟩ := C132_nan hrd "Grad".toList (by decide) [[.fin 1]] [] .pinf (by simp) (by
    intro r hr x hx
    simp only [List.mem_singleton] at hr
    subst hr
    simp only [List.mem_singleton] at hx
    subst hx
    exact isDouble_one) (by simp)
  refine ⟨rd, hrd, t, ht, ?_⟩
  unfold load
  rw [hg]
  rfl

end Verif.Props
