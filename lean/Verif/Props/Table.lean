import Verif.Model.AuxFn
import Verif.Props.Rms
import Verif.Props.FitStart

/-! # C53 `table_pyoof_out` -/

namespace Verif.Props

open Verif Verif.AuxFn Verif.MathFn Verif.Fs Verif.Store Verif.Fit

/-- The directory `p` holds the output of a run of at least the given order: information, an `n x n`
phase map (finite numbers) and at least three fitted parameters. -/
structure Spec.Output (fs : FS Content) (order : ℕ) (p : Path) (i : Info) (n : ℕ)
    (f : Fin n × Fin n → ℝ) (fit : List ℝ) : Prop where
  info : fs ("pyoof_info.yml".toList :: p) = some (.file (.info i))
  phase : ∃ header, fs (Spec.file "phase" order :: p) =
    some (.file (.csv header (List.ofFn fun r => List.ofFn fun c => .fin (f (r, c)))))
  params : ∃ names init, fs (Spec.file "fitpar" order :: p) = some (.file (.params names fit init))
  snr : i.snr.length = 3
  size : 3 ≤ n
  fitted : 3 ≤ fit.length

/-- The row that belongs to such an output. -/
structure Spec.RowOf (i : Info) (n : ℕ) (f : Fin n × Fin n → ℝ) (fit : List ℝ) (r : Row) : Prop where
  name : r.name = i.name
  telName : r.telName = i.telName
  obsObject : r.obsObject = i.obsObject
  obsDate : r.obsDate = i.obsDate
  meanel : r.meanel = i.meanel
  coeffs : [r.iAmp, r.cdB, r.q] = fit.take 3
  snr : r.snr = i.snr
  phase : ∃ v S, (∀ q, q ∈ S ↔ Spec.inDisc n q) ∧ Spec.isRms S f v ∧ r.phaseRms = some v ∧
    r.eRs = some (Real.exp (-v ^ 2))

/-- The disc contains a grid point. -/
theorem disc_nonempty {n : ℕ} (hn : 3 ≤ n) : ∃ q : Fin n × Fin n, Spec.inDisc n q := by
  refine ⟨(⟨n / 2, by omega⟩, ⟨n / 2, by omega⟩), ?_⟩
  unfold Spec.inDisc
  dsimp only
  have hn' : (3 : ℝ) ≤ n := by exact_mod_cast hn
  have h1 : (0 : ℝ) < (n : ℝ) - 1 := by linarith
  have hlo : (n : ℝ) - 1 ≤ 2 * ((n / 2 : ℕ) : ℝ) := by
    have : n - 1 ≤ 2 * (n / 2) := by omega
    have h2 : ((n - 1 : ℕ) : ℝ) ≤ ((2 * (n / 2) : ℕ) : ℝ) := by exact_mod_cast this
    rw [Nat.cast_sub (by omega)] at h2
    push_cast at h2
    simpa using h2
  have hhi : 2 * ((n / 2 : ℕ) : ℝ) ≤ n := by
    have : 2 * (n / 2) ≤ n := by omega
    exact_mod_cast this
  have e1 : 1 ≤ 2 * ((n / 2 : ℕ) : ℝ) / ((n : ℝ) - 1) := by rw [le_div_iff₀ h1]; linarith
  have e2 : 2 * ((n / 2 : ℕ) : ℝ) / ((n : ℝ) - 1) ≤ 3 / 2 := by
    rw [div_le_iff₀ h1]; linarith
  generalize 2 * ((n / 2 : ℕ) : ℝ) / ((n : ℝ) - 1) = x at e1 e2
  nlinarith

theorem getD_ofFn {α : Type} {n : ℕ} (g : Fin n → α) (i : Fin n) (d : α) :
    (List.ofFn g).getD i d = g i := by
  simp

theorem genfromtxt_square {n : ℕ} (hn : 3 ≤ n) (f : Fin n × Fin n → ℝ) :
    genfromtxt (List.ofFn fun r => List.ofFn fun c => .fin (f (r, c))) =
      .ok (.d2 n n fun q => some (f q)) := by
  obtain ⟨m, rfl⟩ : ∃ m, n = m + 1 := ⟨n - 1, by omega⟩
  set L : List (List Fl) := List.ofFn fun r => List.ofFn fun c => Fl.fin (f (r, c)) with hL
  have hlen : L.length = m + 1 := by simp [hL]
  have hhd : (L.headD []).length = m + 1 := by
    rw [hL, List.ofFn_succ]
    simp
  have hrow : ∀ r ∈ L, r.length = m + 1 := by
    intro r hr
    rw [hL] at hr
    obtain ⟨i, rfl⟩ := (List.mem_ofFn' _ _).1 hr
    simp
  have hget : ∀ i j : Fin (m + 1), (L.getD i []).getD j Fl.nan = .fin (f (i, j)) := by
    intro i j
    rw [hL, getD_ofFn, getD_ofFn]
  have key : ∀ k l : ℕ, k = m + 1 → l = m + 1 →
      (Arr.d2 k l fun q => toNum ((L.getD q.1 []).getD q.2 .nan)) =
      .d2 (m + 1) (m + 1) fun q => some (f q) := by
    rintro _ _ rfl rfl
    congr 1
    funext q
    rw [hget]
    rfl
  unfold genfromtxt
  dsimp only
  rw [hhd, if_neg (not_not.2 hrow), if_neg (by omega)]
  rw [key _ _ hlen rfl]

/-- One row. -/
theorem tableRow_run {fs : FS Content} {order : ℕ} {p : Path} {i : Info} {n : ℕ}
    {f : Fin n × Fin n → ℝ} {fit : List ℝ} (h : Spec.Output fs order p i n f fit) :
    ∃ r, (tableRow order p).run fs = (.ok r, fs) ∧ Spec.RowOf i n f fit r := by
  obtain ⟨hdr, hph⟩ := h.phase
  obtain ⟨names, init, hpar⟩ := h.params
  rw [← fileName_spec] at hph hpar
  obtain ⟨q0, hq0⟩ := disc_nonempty h.size
  have hmem : ∀ q, q ∈ Spec.discEntries (fun q => some (f q)) ↔ Spec.inDisc n q := by
    intro q; simp [Spec.discEntries]
  have hne : (Spec.discEntries fun q => some (f q)).Nonempty := ⟨q0, (hmem q0).2 hq0⟩
  obtain ⟨v, hv, hrms⟩ := C33_circ (fun q => some (f q)) hne
  obtain ⟨a, b, c, t, rfl⟩ : ∃ a b c t, fit = a :: b :: c :: t := by
    have := h.fitted
    match fit, this with
    | a :: b :: c :: t, _ => exact ⟨a, b, c, t, rfl⟩
  have hst : (rms (.d2 n n fun q => some (f q)) true).2 = .d2 n n (masked fun q => some (f q)) := by
    rw [rms_true]
  have hv2 : (rms (.d2 n n (masked fun q => some (f q))) true).1 = .ok (some v) := by
    rw [rms_true] at hv ⊢
    rw [masked_masked]
    exact hv
  refine ⟨⟨i.name, i.telName, i.obsObject, i.obsDate, i.meanel, a, b, c, some v,
    some (Real.exp (-v ^ 2)), i.snr⟩, ?_, ⟨rfl, rfl, rfl, rfl, rfl, rfl, rfl,
    v, _, hmem, hrms, rfl, rfl⟩⟩
  unfold tableRow
  simp only [Prog.run_bind, run_readFile, h.info, hph, hpar, Prog.run_lift, genfromtxt_square h.size f,
    hv, hst, eRs, hv2, Except.map, Option.map_some, h.snr]
  rfl

/-- **C53**. The table has one row per path, in the given order, with the information of that run,
its first three fitted parameters, the rms of its phase map over the closed disc and the efficiency
`exp(-rms²)`; no file is changed. -/
theorem C53_rows (order : ℕ) (fs : FS Content)
    (l : List (Path × Info × (Σ n, Fin n × Fin n → ℝ) × List ℝ))
    (h : ∀ x ∈ l, Spec.Output fs order x.1 x.2.1 x.2.2.1.1 x.2.2.1.2 x.2.2.2) :
    ∃ rows, (tablePyoofOut order (l.map Prod.fst)).run fs = (.ok rows, fs) ∧
      List.Forall₂ (fun x r => Spec.RowOf x.2.1 x.2.2.1.1 x.2.2.1.2 x.2.2.2 r) l rows := by
  induction l with
  | nil => exact ⟨[], rfl, .nil⟩
  | cons x l ih =>
    obtain ⟨r, hr, hr'⟩ := tableRow_run (h x List.mem_cons_self)
    obtain ⟨rows, hrows, hrows'⟩ := ih fun y hy => h y (List.mem_cons_of_mem _ hy)
    refine ⟨r :: rows, ?_, .cons hr' hrows'⟩
    rw [List.map_cons, tablePyoofOut, Prog.run_bind, hr]
    dsimp only
    rw [Prog.run_bind, hrows]
    rfl

/-- **C53**. A path without the information file ends the call with `FileNotFoundError`. -/
theorem C53_missing (order : ℕ) (fs : FS Content) (p : Path) (l : List Path)
    (h : ∀ c, fs ("pyoof_info.yml".toList :: p) ≠ some (.file c)) :
    (tablePyoofOut order (p :: l)).run fs = (.error .fileNotFoundError, fs) := by
  have e : (readFile (p.join "pyoof_info.yml".toList) : Prog Content Content).run fs =
      (.error .fileNotFoundError, fs) := by
    rw [run_readFile]
    split
    · rename_i c hc
      exact absurd hc (h c)
    · rfl
  rw [tablePyoofOut, tableRow, Prog.run_bind, Prog.run_bind, e]

end Verif.Props
