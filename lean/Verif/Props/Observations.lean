import Verif.Model.CreateLookup
import Verif.Props.Table
import Verif.Props.NewTable
import Verif.Props.ActFit

/-!
# C89: from the stored fits to the new look-up table
-/

namespace Verif.Props

open Verif Verif.Fs Verif.Store Verif.AuxFn Verif.Actuator Verif.CreateLookup

/-! ## Specification -/

/-- A stored fit: its directory, information, phase map and parameters. -/
structure Spec.StoredFit where
  dir : Path
  info : Info
  n : ℕ
  phase : Fin n × Fin n → ℝ
  fit : List ℝ

/-- It is on the disk, in order `k`. -/
def Spec.StoredFit.On (x : Spec.StoredFit) (fs : FS Content) (k : ℕ) : Prop :=
  Spec.Output fs k x.dir x.info x.n x.phase x.fit

/-- The directory has the name of the observation and the number `run`. -/
def Spec.StoredFit.Named (x : Spec.StoredFit) (out : Path) (run : Str) : Prop :=
  x.dir = (x.info.name ++ '-' :: run) :: out

/-- An observation with this name and this signal-to-noise ratio in focus enters the model: the ratio is
above 200 and the name does not end in `offset`. -/
def Spec.Good (name : Str) (snr : Fl) : Prop :=
  (snr = .pinf ∨ ∃ x, snr = .fin x ∧ 200 < x) ∧ name ≠ "offset".toList ∧ ¬ "-offset".toList <:+ name

/-- The observation enters the model. -/
def Spec.Used (i : Info) : Prop := ∃ s, i.snr[1]? = some s ∧ Spec.Good i.name s

/-- `sort` rearranges a table. -/
def Spec.Sorts (sort : List Row → Py (List Row)) : Prop := ∀ rows, ∃ tab, sort rows = .ok tab ∧ tab.Perm rows

/-! ## Selection -/

theorem takeWhile_dash (p s : List Char) (hs : ∀ c ∈ s, c ≠ '-') :
    (s ++ p).takeWhile (fun c => decide (c ≠ '-')) = s ↔ p = [] ∨ ∃ t, p = '-' :: t := by
  rw [List.takeWhile_append_of_pos (by simpa using hs)]
  cases p with
  | nil => simp
  | cons c t =>
    by_cases hc : c = '-'
    · simp [hc]
    · simp [hc]

theorem lastPart_offset (name : Str) :
    lastPart name = "offset".toList ↔ name = "offset".toList ∨ "-offset".toList <:+ name := by
  have hs : ∀ c ∈ "offset".toList.reverse, c ≠ '-' := by decide
  constructor
  · intro h
    have h1 : name.reverse.takeWhile (fun c => decide (c ≠ '-')) = "offset".toList.reverse := by
      rw [← h, lastPart, List.reverse_reverse]
    have h2 : name.reverse = "offset".toList.reverse ++ name.reverse.dropWhile (fun c => decide (c ≠ '-')) := by
      rw [← h1]; exact (List.takeWhile_append_dropWhile).symm
    rcases (takeWhile_dash _ _ hs).1 (h2 ▸ h1) with h3 | ⟨t, h3⟩
    · rw [h3, List.append_nil] at h2
      exact .inl (List.reverse_injective h2)
    · rw [h3] at h2
      refine .inr ⟨t.reverse, ?_⟩
      have := congrArg List.reverse h2
      rw [List.reverse_reverse] at this
      rw [this]
      simp
  · intro h
    unfold lastPart
    have : name.reverse.takeWhile (fun c => decide (c ≠ '-')) = "offset".toList.reverse := by
      rcases h with rfl | ⟨t, rfl⟩
      · decide
      · have : (t ++ "-offset".toList).reverse = "offset".toList.reverse ++ '-' :: t.reverse := by simp
        rw [this]
        exact (takeWhile_dash _ _ hs).2 (.inr ⟨_, rfl⟩)
    rw [this, List.reverse_reverse]

/-- **C89.**  Which observations enter the model. -/
theorem C89_selected {i : Info} {n : ℕ} {f : Fin n × Fin n → ℝ} {fit : List ℝ} {r : Row}
    (h : Spec.RowOf i n f fit r) (hs : i.snr.length = 3) : selected r = true ↔ Spec.Used i := by
  classical
  have h1 : 1 < i.snr.length := by omega
  unfold selected Spec.Used Spec.Good
  rw [Bool.and_eq_true, decide_eq_true_eq, Bool.not_eq_true', decide_eq_false_iff_not, h.name, h.snr,
    lastPart_offset, not_or, List.getD_eq_getElem?_getD, List.getElem?_eq_getElem h1]
  simp only [Option.getD_some, Option.some.injEq, exists_eq_left']
  refine and_congr ?_ Iff.rfl
  cases i.snr[1] <;> simp [Fl.lt]

/-! ## Pairing -/

theorem perm_rel {α β : Type} {R : α → β → Prop} {l : List α} {m m' : List β} (h : List.Forall₂ R l m)
    (hp : m'.Perm m) : ∃ l', l'.Perm l ∧ List.Forall₂ R l' m' := by
  induction hp generalizing l with
  | nil => exact ⟨l, .refl _, h⟩
  | cons x _ ih =>
    cases h with
    | cons h1 h2 =>
      obtain ⟨l', p, q⟩ := ih h2
      exact ⟨_ :: l', p.cons _, .cons h1 q⟩
  | swap x y t =>
    cases h with
    | cons h1 h2 =>
      cases h2 with
      | cons h2 h3 => exact ⟨_, .swap _ _ _, .cons h2 (.cons h1 h3)⟩
  | trans _ _ ih1 ih2 =>
    obtain ⟨l1, p1, q1⟩ := ih2 h
    obtain ⟨l2, p2, q2⟩ := ih1 q1
    exact ⟨l2, p2.trans p1, q2⟩

open Classical in
theorem filter_rel {α β : Type} {R : α → β → Prop} {P : α → Prop} {p : β → Bool}
    (hP : ∀ a b, R a b → (p b = true ↔ P a)) {l : List α} {m : List β} (h : List.Forall₂ R l m) :
    List.Forall₂ R (l.filter fun a => decide (P a)) (m.filter p) := by
  induction h with
  | nil => exact .nil
  | @cons a b l m h1 _ ih =>
    by_cases hb : p b = true
    · rw [List.filter_cons_of_pos hb, List.filter_cons_of_pos (by simpa using (hP a b h1).1 hb)]
      exact .cons h1 ih
    · rw [List.filter_cons_of_neg hb, List.filter_cons_of_neg (by simpa using fun h => hb ((hP a b h1).2 h))]
      exact ih

theorem coeffRows_run {fs : FS Content} (out : Path) (run : Str) (n : ℕ) (rows : List Row) (fits : List (List ℝ))
    (h : List.Forall₂ (fun r fit => fit.length = 5 + Spec.nK n ∧ ∃ names init,
      fs (Spec.file "fitpar" n :: (r.name ++ '-' :: run) :: out) = some (.file (.params names fit init)))
      rows fits) :
    (coeffRows out run n rows).run fs = (.ok (fits.map fun f => f.drop 5), fs) := by
  induction h with
  | nil => rfl
  | @cons r fit rows fits h1 _ ih =>
    obtain ⟨hl, names, init, hf⟩ := h1
    rw [← fileName_spec] at hf
    have e : (rowCoeffs out run n r).run fs = (.ok (fit.drop 5), fs) := by
      have : (fit.drop 5).length = (n + 1) * (n + 2) / 2 := by
        rw [List.length_drop, hl]
        show 5 + (n + 1) * (n + 2) / 2 - 5 = _
        omega
      unfold rowCoeffs
      rw [Prog.run_bind, run_readFile]
      simp only [Path.join, hf, Prog.run_lift, assignRow, if_pos this]
    unfold coeffRows
    rw [Prog.run_bind, e]
    dsimp only
    rw [Prog.run_bind, ih]
    rfl

open Classical in
/-- The rows that are used and their coefficients. -/
theorem observed_run (out : Path) (run : Str) (k : ℕ) (sort : List Row → Py (List Row))
    (hs : Spec.Sorts sort) (fs : FS Content) (l : List (Spec.StoredFit × List ℝ))
    (hl : ∀ x ∈ l, x.1.On fs k)
    (hf : ∀ x ∈ l, Spec.Used x.1.info → x.2.length = 5 + Spec.nK k ∧ ∃ names init,
      fs (Spec.file "fitpar" k :: (x.1.info.name ++ '-' :: run) :: out) =
        some (.file (.params names x.2 init))) :
    ∃ (l' : List (Spec.StoredFit × List ℝ)) (sel : List Row),
      l'.Perm (l.filter fun x => decide (Spec.Used x.1.info)) ∧
      List.Forall₂ (fun x r => x ∈ l ∧ Spec.RowOf x.1.info x.1.n x.1.phase x.1.fit r) l' sel ∧
      (observed out run k sort (l.map fun x => x.1.dir)).run fs = (.ok (sel, l'.map fun x => x.2.drop 5), fs) := by
  obtain ⟨rows, h1, h2⟩ := C53_rows k fs
    (l.map fun x : Spec.StoredFit × List ℝ =>
      (x.1.dir, x.1.info, (⟨x.1.n, x.1.phase⟩ : Σ n, Fin n × Fin n → ℝ), x.1.fit)) (by
      intro y hy
      obtain ⟨x, hx, rfl⟩ := List.mem_map.1 hy
      exact hl x hx)
  rw [List.map_map] at h1
  rw [List.forall₂_map_left_iff] at h2
  obtain ⟨tab, h3, h4⟩ := hs rows
  obtain ⟨l2, p2, q2⟩ := perm_rel h2 h4
  have q3 : List.Forall₂ (fun (x : Spec.StoredFit × List ℝ) r => x ∈ l ∧
      Spec.RowOf x.1.info x.1.n x.1.phase x.1.fit r) l2 tab := by
    rw [List.forall₂_iff_get] at q2 ⊢
    exact ⟨q2.1, fun i hi hi' => ⟨p2.subset (List.get_mem _ _), q2.2 i hi hi'⟩⟩
  have q4 := filter_rel (P := fun x : Spec.StoredFit × List ℝ => Spec.Used x.1.info) (p := selected)
    (fun x r h => C89_selected h.2 (hl x h.1).snr) q3
  have hu : ∀ x ∈ l2.filter (fun x => decide (Spec.Used x.1.info)), Spec.Used x.1.info := by
    intro x hx
    simpa using (List.mem_filter.1 hx).2
  generalize hl3 : l2.filter (fun x => decide (Spec.Used x.1.info)) = l3 at q4 hu
  replace hl3 : l3.Perm (l2.filter fun x => decide (Spec.Used x.1.info)) := hl3 ▸ .refl _
  generalize hsel : tab.filter selected = sel at q4
  have e2 := coeffRows_run (fs := fs) out run k sel (l3.map fun x => x.2) (by
    rw [List.forall₂_map_right_iff]
    rw [List.forall₂_iff_get] at q4
    rw [List.forall₂_iff_get]
    refine ⟨q4.1.symm, fun i hi hi' => ?_⟩
    have h := q4.2 i hi' hi
    have := hf _ h.1 (hu _ (List.get_mem _ _))
    rw [h.2.name]
    exact this)
  refine ⟨l3, sel, hl3.trans (p2.filter _), q4, ?_⟩
  unfold observed
  rw [Prog.run_bind, show l.map (fun x => x.1.dir) = l.map (Prod.fst ∘ fun x : Spec.StoredFit × List ℝ =>
    (x.1.dir, x.1.info, (⟨x.1.n, x.1.phase⟩ : Σ n, Fin n × Fin n → ℝ), x.1.fit)) from rfl, h1]
  dsimp only
  rw [Prog.run_bind, Prog.run_lift, h3]
  dsimp only
  rw [Prog.run_bind, hsel, e2]
  dsimp only
  rw [List.map_map]
  rfl

open Classical in
/-- **C89.**  The elevations and coefficients that enter the fit: those of the used observations, each one
once, in the order of the sorted table.  The coefficients of an observation are those in the directory
`name-run`, where `name` is the name in its information file. -/
theorem C89_observations (out : Path) (run : Str) (k : ℕ) (sort : List Row → Py (List Row))
    (hs : Spec.Sorts sort) (fs : FS Content) (l : List (Spec.StoredFit × List ℝ))
    (hl : ∀ x ∈ l, x.1.On fs k)
    (hf : ∀ x ∈ l, Spec.Used x.1.info → x.2.length = 5 + Spec.nK k ∧ ∃ names init,
      fs (Spec.file "fitpar" k :: (x.1.info.name ++ '-' :: run) :: out) =
        some (.file (.params names x.2 init))) :
    ∃ l' : List (Spec.StoredFit × List ℝ), l'.Perm (l.filter fun x => decide (Spec.Used x.1.info)) ∧
      (observations out run k sort (l.map fun x => x.1.dir)).run fs =
        (.ok (l'.map fun x => .quant x.1.info.meanel (Real.pi / 180), l'.map fun x => x.2.drop 5), fs) := by
  obtain ⟨l', sel, h1, h2, h3⟩ := observed_run out run k sort hs fs l hl hf
  refine ⟨l', h1, ?_⟩
  unfold observations
  rw [Prog.run_bind, h3]
  dsimp only
  have e1 : (sel.map fun r => (Act.Angle.quant r.meanel (Real.pi / 180))) =
      l'.map fun x => Act.Angle.quant x.1.info.meanel (Real.pi / 180) := by
    clear h1 h3
    induction h2 with
    | nil => rfl
    | cons h _ ih =>
      simp only [List.map_cons, List.cons.injEq]
      exact ⟨by rw [h.2.meanel], ih⟩
  rw [e1]
  rfl

/-- What the gravitational model with the coefficients `g` of one polynomial gives at `deg` degrees. -/
def Spec.Gravity (deg : ℝ) (g : List ℝ) (k : ℝ) : Prop :=
  ∃ a b c, g = [a, b, c] ∧ k = a * Real.sin (deg * (Real.pi / 180)) + b * Real.cos (deg * (Real.pi / 180)) + c

open Classical in
/-- **C89.**  When the coefficients of the used observations follow a gravitational model, three of them
at different elevations, and the optimiser finds the minimum, the script writes the table of that
model (C75) and nothing else.  The observations that are not used, the order of the directories and the
sorting are without effect. -/
theorem C89_table (a : Act) (hq : Spec.Quintic a.spline) (hr : 6 ≤ a.resolution) (hsr : 0 < a.sr)
    (hsr' : a.sr ≤ 5.2) (hfr : a.frequency ≠ 0) (hsg : a.sign ≠ 0) (hn : a.nReflections ≠ 0)
    (ha : Spec.Writable a) (ho : 1 ≤ a.order) (solver : Act.Solver (List ℝ))
    (hsol : Spec.Exact Spec.costL solver) (out : Path) (run : Str) (sort : List Row → Py (List Row))
    (hs : Spec.Sorts sort) (fs : FS Content) (l : List Spec.StoredFit)
    (hl : ∀ x ∈ l, x.On fs a.order ∧ x.Named out run ∧ x.fit.length = 5 + Spec.nK a.order)
    (g : List (List ℝ)) (hg : g.length = Spec.nK a.order)
    (hfol : ∀ x ∈ l, Spec.Used x.info → List.Forall₂ (Spec.Gravity x.info.meanel) g (x.fit.drop 5))
    (h3 : ∃ x ∈ l, ∃ y ∈ l, ∃ z ∈ l, Spec.Used x.info ∧ Spec.Used y.info ∧ Spec.Used z.info ∧
      x.info.meanel < y.info.meanel ∧ y.info.meanel < z.info.meanel ∧ z.info.meanel < x.info.meanel + 360)
    (v : Fin 11 → Fin 96 → ℤ) (lookup : Path) (hlook : fs lookup = some (.file (.text (Spec.lookupText v))))
    (sf : Str) (sd : Path) (hsave : isDir fs (sf :: sd) ∨ fs (sf :: sd) = none ∧ isDir fs sd) (fname : Str)
    (hname : ¬ isDir fs (fname :: sf :: sd)) :
    ∃ (fs' : FS Content) (w : Fin 11 → Fin 96 → ℤ), a.createLookup g (Spec.lookupText v) = .ok (Spec.lookupText w) ∧
      (script a solver out run sort (l.map fun x => x.dir) lookup (sf :: sd) fname).run fs = (.ok (), fs') ∧
      fs' (fname :: sf :: sd) = some (.file (.text (Spec.lookupText w))) ∧
      ∀ q, q ≠ fname :: sf :: sd → q ≠ sf :: sd → fs' q = fs q := by
  obtain ⟨l', p1, h1⟩ := C89_observations out run a.order sort hs fs (l.map fun x => (x, x.fit)) (by
      intro y hy
      obtain ⟨x, hx, rfl⟩ := List.mem_map.1 hy
      exact (hl x hx).1) (by
      intro y hy _
      obtain ⟨x, hx, rfl⟩ := List.mem_map.1 hy
      obtain ⟨e1, e2, e3⟩ := hl x hx
      refine ⟨e3, ?_⟩
      have := e1.params
      rw [e2] at this
      exact this)
  rw [List.map_map] at h1
  have hmem : ∀ y, y ∈ l' ↔ ∃ x ∈ l, Spec.Used x.info ∧ y = (x, x.fit) := by
    intro y
    rw [p1.mem_iff]
    simp only [List.mem_filter, List.mem_map, decide_eq_true_eq]
    constructor
    · rintro ⟨⟨x, hx, rfl⟩, hu⟩
      exact ⟨x, hx, hu, rfl⟩
    · rintro ⟨x, hx, hu, rfl⟩
      exact ⟨⟨x, hx, rfl⟩, hu⟩
  have hpi := Real.pi_pos
  have hrow : ∀ r ∈ g, r.length = 3 := by
    obtain ⟨x, hx, -, -, -, -, hu, -⟩ := h3
    intro r hr
    obtain ⟨i, hi, rfl⟩ := List.getElem_of_mem hr
    have h := hfol x hx hu
    obtain ⟨b, c, d, e, -⟩ := (List.forall₂_iff_get.1 h).2 i hi (h.length_eq ▸ hi)
    have e : g[i] = [b, c, d] := e
    rw [e]; rfl
  have hgrav := C65_gravity a solver hsol
    (l'.map fun x => Act.Angle.quant x.1.info.meanel (Real.pi / 180)) (by
      obtain ⟨x, hx, y, hy, z, hz, ux, uy, uz, h4, h5, h6⟩ := h3
      refine ⟨_, List.mem_map.2 ⟨_, (hmem _).2 ⟨x, hx, ux, rfl⟩, rfl⟩,
        _, List.mem_map.2 ⟨_, (hmem _).2 ⟨y, hy, uy, rfl⟩, rfl⟩,
        _, List.mem_map.2 ⟨_, (hmem _).2 ⟨z, hz, uz, rfl⟩, rfl⟩, ?_, ?_, ?_⟩
      · simp only [Act.Angle.rad]; nlinarith
      · simp only [Act.Angle.rad]; nlinarith
      · simp only [Act.Angle.rad]; nlinarith) g hg hrow
    (l'.map fun x => x.2.drop 5) (by
      rw [List.forall₂_map_left_iff, List.forall₂_map_right_iff, List.forall₂_same]
      intro y hy
      obtain ⟨x, hx, hu, rfl⟩ := (hmem y).1 hy
      refine (hfol x hx hu).imp ?_
      rintro gr k ⟨b, c, d, rfl, rfl⟩
      rfl)
  have hne : (l'.map fun x => Act.Angle.quant x.1.info.meanel (Real.pi / 180)).isEmpty = false := by
    obtain ⟨x, hx, -, -, -, -, hu, -⟩ := h3
    have := (hmem _).2 ⟨x, hx, hu, rfl⟩
    cases l' with
    | nil => simp at this
    | cons _ _ => rfl
  have hen : Spec.Enough a g := ⟨ho, hg.ge, fun r hr => (hrow r hr).ge⟩
  obtain ⟨-, -, -, w, -, -, -, hw, -⟩ := C75_commands a hq hr hsr hsr' hfr hsg hn ha g hen v
  obtain ⟨L, -, hL, -⟩ := model_phases a hsr.le hsr' g hen
  obtain ⟨fs1, d1, d2, d3⟩ : ∃ fs1, (saveDir (sf :: sd)).run fs = (.ok (), fs1) ∧
      isDir fs1 (sf :: sd) ∧ ∀ q, q ≠ sf :: sd → fs1 q = fs q := by
    rcases hsave with h | ⟨h, h'⟩
    · refine ⟨fs, ?_, h, fun _ _ => rfl⟩
      rw [saveDir, Prog.run_bind, run_isdirP, h]
      rfl
    · have hnd : isDir fs (sf :: sd) = false := by
        simp [isDir, h]
      have hp : present fs (sf :: sd) = false := by
        simp [present, h]
      refine ⟨update fs (sf :: sd) .dir, ?_, by rw [isDir_iff, update_same], fun q hq => update_ne _ _ hq⟩
      rw [saveDir, Prog.run_bind, run_isdirP, hnd]
      simp only [Bool.not_false, if_true]
      rw [run_makedirs_leaf _ _ _ _ h', if_neg (by rw [hp]; simp)]
  have hlook1 : fs1 lookup = some (.file (.text (Spec.lookupText v))) := by
    by_cases e : lookup = sf :: sd
    · exfalso
      subst e
      rcases hsave with h | ⟨h, -⟩
      · rw [isDir_iff, hlook] at h
        cases h
      · rw [hlook] at h
        cases h
    · rw [d3 _ e, hlook]
  have hname1 : isDir fs1 (fname :: sf :: sd) = false := by
    rw [Bool.eq_false_iff]
    intro h
    rw [isDir_iff, d3 _ (by simp)] at h
    exact hname (isDir_iff.2 h)
  refine ⟨update fs1 (fname :: sf :: sd) (.file (.text (Spec.lookupText w))), w, hw, ?_, update_same _ _ _,
    fun q q1 q2 => by rw [update_ne _ _ q1, d3 _ q2]⟩
  unfold script
  rw [Prog.run_bind, run_readFile, hlook]
  dsimp only
  rw [Prog.run_bind, show l.map (fun x => x.dir) = l.map ((fun x : Spec.StoredFit × List ℝ => x.1.dir) ∘
    fun x => (x, x.fit)) from rfl, h1]
  dsimp only
  rw [Prog.run_bind, Prog.run_lift, hgrav]
  dsimp only
  rw [Prog.run_bind, Prog.run_lift, hne]
  rw [if_neg Bool.false_ne_true]
  dsimp only
  rw [Prog.run_bind, Prog.run_lift, hL]
  dsimp only
  rw [Prog.run_bind, d1]
  dsimp only
  unfold writeTable
  rw [Prog.run_bind, run_readFile, hlook1]
  dsimp only
  rw [Prog.run_bind, Prog.run_lift]
  dsimp only
  rw [Prog.run_bind, Prog.run_lift, hw]
  dsimp only
  rw [run_writeFile, if_pos]
  simp only [Path.join, hname1, List.tail_cons, d2, Bool.not_false, Bool.and_self]

theorem puts_tableRow {S : Path → Prop} (order : ℕ) (p : Path) : Puts S (tableRow order p) := by
  unfold tableRow
  repeat' first
    | exact puts_readFile _
    | exact puts_lift _
    | exact trivial
    | refine puts_bind ?_ fun _ => ?_
    | split

theorem puts_table {S : Path → Prop} (order : ℕ) (l : List Path) : Puts S (tablePyoofOut order l) := by
  induction l with
  | nil => exact trivial
  | cons p l ih =>
    unfold tablePyoofOut
    exact puts_bind (puts_tableRow _ _) fun _ => puts_bind ih fun _ => trivial

theorem puts_coeffRows {S : Path → Prop} (out : Path) (run : Str) (n : ℕ) (l : List Row) :
    Puts S (coeffRows out run n l) := by
  induction l with
  | nil => exact trivial
  | cons r l ih =>
    unfold coeffRows
    refine puts_bind ?_ fun _ => puts_bind ih fun _ => trivial
    unfold rowCoeffs
    refine puts_bind (puts_readFile _) fun c => ?_
    cases c <;> first | exact puts_lift _ | exact trivial

theorem puts_observed {S : Path → Prop} (out : Path) (run : Str) (n : ℕ) (sort : List Row → Py (List Row))
    (l : List Path) : Puts S (observed out run n sort l) := by
  unfold observed
  exact puts_bind (puts_table _ _) fun _ => puts_bind (puts_lift _) fun _ =>
    puts_bind (puts_coeffRows _ _ _ _) fun _ => trivial

theorem puts_observations {S : Path → Prop} (out : Path) (run : Str) (n : ℕ) (sort : List Row → Py (List Row))
    (l : List Path) : Puts S (observations out run n sort l) := by
  unfold observations
  exact puts_bind (puts_observed _ _ _ _ _) fun _ => trivial

/-- **C89.**  Whatever the input, and wherever the script is stopped: nothing that was there is changed,
except the file of the new table. -/
theorem C89_untouched (a : Act) (solver : Act.Solver (List ℝ)) (out : Path) (run : Str)
    (sort : List Row → Py (List Row)) (dirs : List Path) (lookup save : Path) (fname : Str)
    (fs fs' : FS Content) (h : fs' ∈ (script a solver out run sort dirs lookup save fname).trace fs) (q : Path)
    (hq : fs q ≠ none) (hne : q ≠ fname :: save) : fs' q = fs q := by
  refine trace_puts (S := fun p => p = fname :: save) ?_ h (Option.isSome_iff_ne_none.2 hq) hne
  unfold script
  refine puts_bind (puts_readFile _) fun _ => puts_bind (puts_observations _ _ _ _ _) fun _ =>
    puts_bind (puts_lift _) fun _ => puts_bind (puts_lift _) fun _ => puts_bind (puts_lift _) fun _ =>
    puts_bind ?_ fun _ => ?_
  · unfold saveDir
    refine puts_bind (puts_isdirP _) fun e => ?_
    cases e
    · exact puts_makedirs _ _
    · exact trivial
  · unfold writeTable
    exact puts_bind (puts_readFile _) fun _ => puts_bind (puts_lift _) fun _ => puts_bind (puts_lift _)
      fun _ => puts_writeFile (S := fun p => p = fname :: save) rfl _ _

/-- **C89.**  When no observation is used the script ends in an exception and writes nothing. -/
theorem C89_none (a : Act) (solver : Act.Solver (List ℝ)) (out : Path) (run : Str)
    (sort : List Row → Py (List Row)) (hs : Spec.Sorts sort) (fs : FS Content) (l : List Spec.StoredFit)
    (hl : ∀ x ∈ l, x.On fs a.order ∧ ¬ Spec.Used x.info) (lookup save : Path) (fname : Str) :
    ∃ e, (script a solver out run sort (l.map fun x => x.dir) lookup save fname).run fs = (.error e, fs) := by
  classical
  obtain ⟨l', p1, h1⟩ := C89_observations out run a.order sort hs fs (l.map fun x => (x, x.fit)) (by
      intro y hy
      obtain ⟨x, hx, rfl⟩ := List.mem_map.1 hy
      exact (hl x hx).1) (by
      intro y hy hu
      obtain ⟨x, hx, rfl⟩ := List.mem_map.1 hy
      exact absurd hu (hl x hx).2)
  have hnil : l' = [] := by
    refine List.eq_nil_iff_forall_not_mem.2 fun y hy => ?_
    have := p1.subset hy
    simp only [List.mem_filter, List.mem_map, decide_eq_true_eq] at this
    obtain ⟨⟨x, hx, rfl⟩, hu⟩ := this
    exact (hl x hx).2 hu
  subst hnil
  rw [List.map_map] at h1
  unfold script
  rw [Prog.run_bind, run_readFile]
  rcases hlk : fs lookup with _ | (_ | c)
  · exact ⟨_, rfl⟩
  · exact ⟨_, rfl⟩
  dsimp only
  rw [Prog.run_bind, show l.map (fun x => x.dir) = l.map ((fun x : Spec.StoredFit × List ℝ => x.1.dir) ∘
    fun x => (x, x.fit)) from rfl, h1]
  dsimp only
  rw [Prog.run_bind, Prog.run_lift]
  cases a.fitGrav solver (List.map (fun x : Spec.StoredFit × List ℝ => x.2.drop 5) [])
    (List.map (fun x : Spec.StoredFit × List ℝ => Act.Angle.quant x.1.info.meanel (Real.pi / 180)) []) with
  | error e => exact ⟨e, rfl⟩
  | ok g =>
    dsimp only
    rw [Prog.run_bind, Prog.run_lift]
    exact ⟨.valueError, rfl⟩

/-- One stored fit, with an offset. -/
noncomputable def Spec.lone : Spec.StoredFit where
  dir := ["c-offset-000".toList, "pyoof_out".toList]
  info := ⟨[], [], 50, "c-offset".toList, [], [], [], 0.009, 34e9, [], 40, 256, 5, [.fin 900, .fin 900, .fin 900]⟩
  n := 3
  phase := fun q => (q.1 : ℕ) + (q.2 : ℕ)
  fit := [1, -14.5, 1.4, 0, 0, 0, 1, 2]

noncomputable def Spec.loneFs : FS Content := fun p =>
  if p = "pyoof_info.yml".toList :: Spec.lone.dir then some (.file (.info Spec.lone.info))
  else if p = Spec.file "phase" 1 :: Spec.lone.dir then
    some (.file (.csv [] (List.ofFn fun r => List.ofFn fun c => .fin (Spec.lone.phase (r, c)))))
  else if p = Spec.file "fitpar" 1 :: Spec.lone.dir then some (.file (.params [] Spec.lone.fit []))
  else none

theorem lone_on : Spec.lone.On Spec.loneFs 1 where
  info := if_pos rfl
  phase := ⟨[], by
    rw [Spec.loneFs, if_neg (by simp [Spec.file]), if_pos rfl]⟩
  params := ⟨[], [], by
    rw [Spec.loneFs, if_neg (by simp [Spec.file]), if_neg (by simp [Spec.file]), if_pos rfl]⟩
  snr := rfl
  size := le_rfl
  fitted := by simp [Spec.lone]

/-- A fit with an excellent signal that does not enter the model because of its name. -/
example (solver : Act.Solver (List ℝ)) : ∃ e, (script { Spec.splined with order := 1 } solver ["pyoof_out".toList]
    "000".toList .ok [Spec.lone.dir] ["table".toList] ["save".toList] "new".toList).run Spec.loneFs =
      (.error e, Spec.loneFs) := by
  refine C89_none _ solver _ _ .ok (fun rows => ⟨rows, rfl, .refl _⟩) Spec.loneFs [Spec.lone] ?_ _ _ _
  intro x hx
  rw [List.mem_singleton.1 hx]
  refine ⟨lone_on, ?_⟩
  rintro ⟨s, -, -, -, h⟩
  exact h ⟨"c".toList, rfl⟩

end Verif.Props
