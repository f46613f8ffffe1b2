import Mathlib.Data.List.TakeWhile
import Verif.Model.Csv
import Verif.Lemmas.Lookup
import Verif.Props.Lookup
import Verif.Props.Contents

/-!
# C92: the csv files keep numbers exactly
-/

namespace Verif.Props

open Verif Verif.Csv Verif.Actuator.Act Verif.Fs Verif.Store

/-! ## Specification -/

/-- A number that a double can hold (IEEE 754 binary64). -/
def Spec.IsDouble (x : ℝ) : Prop :=
  ∃ m q : ℤ, |m| < 2 ^ 53 ∧ -1074 ≤ q ∧ q ≤ 971 ∧ x = m * (2 : ℝ) ^ q

/-- A value of a `float64` array. -/
def Spec.Double : Fl → Prop
  | .fin x => Spec.IsDouble x
  | _ => True

/-- A correct conversion of decimal numbers: the result is a nearest double, and is finite for all numbers
below the place where rounding leaves the range. -/
def Spec.Reader (rd : ℝ → Fl) : Prop :=
  ∀ y : ℝ, |y| < 2 ^ 1024 - 2 ^ 970 →
    ∃ z, rd y = .fin z ∧ Spec.IsDouble z ∧ ∀ w, Spec.IsDouble w → |y - z| ≤ |y - w|

/-! ## Two doubles are not closer than their precision -/

theorem double_apart {x w : ℝ} (hx : Spec.IsDouble x) (hw : Spec.IsDouble w) (hne : w ≠ x) :
    |x| / 2 ^ 54 ≤ |x - w| := by
  obtain ⟨m, q, hm, -, -, rfl⟩ := hx
  obtain ⟨n, r, hn, -, -, rfl⟩ := hw
  -- two different multiples of a power of two
  have grid : ∀ (t : ℤ) (a b : ℕ), q = t + a → r = t + b →
      (2 : ℝ) ^ t ≤ |(m : ℝ) * 2 ^ q - n * 2 ^ r| := by
    intro t a b ha hb
    have e : (m : ℝ) * 2 ^ q - n * 2 ^ r = ((m * 2 ^ a - n * 2 ^ b : ℤ) : ℝ) * 2 ^ t := by
      rw [ha, hb, zpow_add₀ two_ne_zero, zpow_add₀ two_ne_zero]
      push_cast; rw [zpow_natCast, zpow_natCast]; ring
    have hz : (m * 2 ^ a - n * 2 ^ b : ℤ) ≠ 0 := by
      intro h
      rw [h] at e
      simp only [Int.cast_zero, zero_mul] at e
      exact hne (sub_eq_zero.1 e).symm
    have hp : (0 : ℝ) < 2 ^ t := zpow_pos two_pos t
    rw [e, abs_mul, abs_of_pos hp]
    have : (1 : ℝ) ≤ |((m * 2 ^ a - n * 2 ^ b : ℤ) : ℝ)| := by
      rw [← Int.cast_abs]; exact_mod_cast Int.one_le_abs hz
    nlinarith
  have hm' : |(m : ℝ)| < 2 ^ 53 := by rw [← Int.cast_abs]; exact_mod_cast hm
  have hn' : |(n : ℝ)| < 2 ^ 53 := by rw [← Int.cast_abs]; exact_mod_cast hn
  have hq : (0 : ℝ) < 2 ^ q := zpow_pos two_pos q
  have hr : (0 : ℝ) < 2 ^ r := zpow_pos two_pos r
  have ex : |(m : ℝ) * 2 ^ q| = |(m : ℝ)| * 2 ^ q := by rw [abs_mul, abs_of_pos hq]
  have ew : |(n : ℝ) * 2 ^ r| = |(n : ℝ)| * 2 ^ r := by rw [abs_mul, abs_of_pos hr]
  rcases le_total q r with h | h
  · have g := grid q 0 (r - q).toNat (by simp) (by omega)
    have : |(m : ℝ)| * 2 ^ q ≤ 2 ^ 53 * 2 ^ q := mul_le_mul_of_nonneg_right hm'.le hq.le
    rw [ex]
    refine le_trans ?_ g
    rw [div_le_iff₀ (by positivity)]
    nlinarith
  · have g := grid r (q - r).toNat 0 (by omega) (by simp)
    by_cases hb : |(m : ℝ) * 2 ^ q| ≤ 2 ^ 54 * 2 ^ r
    · refine le_trans ?_ g
      rw [div_le_iff₀ (by positivity)]
      linarith
    · push Not at hb
      have h1 : |(n : ℝ) * 2 ^ r| ≤ 2 ^ 53 * 2 ^ r := by
        rw [ew]; exact mul_le_mul_of_nonneg_right hn'.le hr.le
      have h2 := abs_sub_abs_le_abs_sub ((m : ℝ) * 2 ^ q) (n * 2 ^ r)
      have h3 : |(m : ℝ) * 2 ^ q| / 2 ^ 54 ≤ |(m : ℝ) * 2 ^ q| / 2 :=
        div_le_div_of_nonneg_left (abs_nonneg _) two_pos (by norm_num)
      linarith

/-- A number that differs from a double by a relative error of `10⁻¹⁸ / 2` is read as this double. -/
theorem read_near {rd : ℝ → Fl} (hrd : Spec.Reader rd) {x y : ℝ} (hx : Spec.IsDouble x)
    (hy : |y - x| ≤ |x| / (2 * 10 ^ 18)) : rd y = .fin x := by
  have hb : |x| ≤ 2 ^ 1024 - 2 ^ 971 := by
    obtain ⟨m, q, hm, -, hq, rfl⟩ := hx
    have hm' : |(m : ℝ)| ≤ 2 ^ 53 - 1 := by
      rw [← Int.cast_abs]
      have : |m| ≤ 2 ^ 53 - 1 := by omega
      exact_mod_cast this
    have hp : (0 : ℝ) < 2 ^ q := zpow_pos two_pos q
    have hq' : (2 : ℝ) ^ q ≤ 2 ^ (971 : ℤ) := zpow_le_zpow_right₀ one_le_two hq
    rw [abs_mul, abs_of_pos hp]
    calc |(m : ℝ)| * 2 ^ q ≤ (2 ^ 53 - 1) * 2 ^ (971 : ℤ) :=
          mul_le_mul hm' hq' hp.le (by norm_num)
      _ = 2 ^ 1024 - 2 ^ 971 := by
          rw [show (971 : ℤ) = ((971 : ℕ) : ℤ) from rfl, zpow_natCast, sub_mul, ← pow_add]; ring
  have hlt : |y| < 2 ^ 1024 - 2 ^ 970 := by
    have h1 : |y| ≤ |x| + |y - x| := by
      have := abs_add_le x (y - x); rwa [add_sub_cancel] at this
    have h3 : |x| / (2 * 10 ^ 18) ≤ 2 ^ 1024 / 2 ^ 60 := by
      have : (2 : ℝ) ^ 60 ≤ 2 * 10 ^ 18 := by norm_num
      exact div_le_div₀ (by positivity) (hb.trans (sub_le_self _ (by positivity))) (by positivity) this
    have h4 : (2 : ℝ) ^ 1024 / 2 ^ 60 = 2 ^ 964 := by
      rw [div_eq_iff (by positivity), ← pow_add]
    have h5 : (2 : ℝ) ^ 964 < 2 ^ 970 := pow_lt_pow_right₀ one_lt_two (by norm_num)
    have h6 : (2 : ℝ) ^ 971 = 2 * 2 ^ 970 := by rw [← pow_succ']
    rw [h4] at h3
    rw [h6] at hb
    generalize (2 : ℝ) ^ 1024 = A at *
    generalize (2 : ℝ) ^ 970 = B at *
    generalize (2 : ℝ) ^ 964 = D at *
    linarith
  obtain ⟨z, hz, hdz, hnear⟩ := hrd y hlt
  rw [hz]
  by_contra hne
  have hne' : z ≠ x := fun h => hne (by rw [h])
  have h1 := double_apart hx hdz hne'
  have h2 := hnear x hx
  have h3 : |x - z| ≤ |y - x| + |y - z| := by
    have := abs_sub_le x y z; rwa [abs_sub_comm x y] at this
  have hx0 : 0 < |x| := by
    rcases (abs_nonneg x).lt_or_eq with h | h
    · exact h
    · rw [← h] at hy h1
      have : |x - z| ≤ 0 := by linarith
      exact absurd (sub_eq_zero.1 (abs_nonpos_iff.1 this)).symm hne'
  have h4 : |x| / 2 ^ 54 ≤ 2 * (|x| / (2 * 10 ^ 18)) := by linarith
  rw [← mul_div_assoc, div_le_div_iff₀ (by positivity) (by positivity)] at h4
  nlinarith

/-! ## The digits -/

theorem sci_spec {x : ℝ} (hx : x ≠ 0) :
    10 ^ 18 ≤ (sci x).1 ∧ (sci x).1 < 10 ^ 19 ∧
      abs (((sci x).1 : ℝ) * 10 ^ ((sci x).2 - 18) - |x|) ≤ |x| / (2 * 10 ^ 18) := by
  have hp : 0 < |x| := abs_pos.2 hx
  set e := Int.log 10 |x| with he
  have h1 : (10 : ℝ) ^ e ≤ |x| := by
    have := Int.zpow_log_le_self (b := 10) (by norm_num) hp
    exact_mod_cast this
  have h2 : |x| < (10 : ℝ) ^ (e + 1) := by
    have := Int.lt_zpow_succ_log_self (b := 10) (by norm_num) |x|
    exact_mod_cast this
  have hs : (0 : ℝ) < 10 ^ (e - 18) := zpow_pos (by norm_num) _
  have e1 : (10 : ℝ) ^ e = 10 ^ 18 * 10 ^ (e - 18) := by
    rw [← zpow_natCast, ← zpow_add₀ (by norm_num)]; congr 1; push_cast; ring
  have e2 : (10 : ℝ) ^ (e + 1) = 10 ^ 19 * 10 ^ (e - 18) := by
    rw [← zpow_natCast, ← zpow_add₀ (by norm_num)]; congr 1; push_cast; ring
  set t := |x| / 10 ^ (e - 18) with ht
  have hxt : |x| = t * 10 ^ (e - 18) := by rw [ht, div_mul_cancel₀ _ hs.ne']
  have t1 : (10 : ℝ) ^ 18 ≤ t := by rw [ht, le_div_iff₀ hs, ← e1]; exact h1
  have t2 : t < 10 ^ 19 := by rw [ht, div_lt_iff₀ hs, ← e2]; exact h2
  obtain ⟨n1, -⟩ := around_nearest t
  rw [abs_le] at n1
  have z1 : (10 : ℤ) ^ 18 ≤ around t := by
    have : ((10 : ℤ) ^ 18 - 1 : ℤ) < around t := by
      have : (((10 : ℤ) ^ 18 - 1 : ℤ) : ℝ) < around t := by push_cast; linarith
      exact_mod_cast this
    omega
  have z2 : around t ≤ 10 ^ 19 := by
    have : around t < (10 : ℤ) ^ 19 + 1 := by
      have : (around t : ℝ) < (((10 : ℤ) ^ 19 + 1 : ℤ) : ℝ) := by push_cast; linarith
      exact_mod_cast this
    omega
  have zc : (((around t).toNat : ℕ) : ℝ) = (around t : ℝ) := by
    have : (((around t).toNat : ℕ) : ℤ) = around t := Int.toNat_of_nonneg (by omega)
    exact_mod_cast this
  have err : abs ((around t : ℝ) * 10 ^ (e - 18) - |x|) ≤ |x| / (2 * 10 ^ 18) := by
    rw [hxt, ← sub_mul, abs_mul, abs_of_pos hs]
    have : |(around t : ℝ) - t| ≤ 1 / 2 := by rw [abs_sub_comm, abs_le]; exact n1
    have h3 : (1 : ℝ) / 2 ≤ t / (2 * 10 ^ 18) := by
      rw [div_le_div_iff₀ (by norm_num) (by norm_num)]; linarith
    calc _ ≤ t / (2 * 10 ^ 18) * 10 ^ (e - 18) := mul_le_mul_of_nonneg_right (this.trans h3) hs.le
      _ = _ := by ring
  unfold sci
  simp only [← he, ← ht]
  split_ifs with hc
  · refine ⟨le_rfl, by norm_num, ?_⟩
    rw [← zc, hc] at err
    have : ((10 ^ 18 : ℕ) : ℝ) * 10 ^ (e + 1 - 18) = ((10 ^ 19 : ℕ) : ℝ) * 10 ^ (e - 18) := by
      rw [show e + 1 - 18 = (e - 18) + 1 by ring, zpow_add_one₀ (by norm_num)]
      push_cast; ring
    rw [this]; exact err
  · refine ⟨by omega, by omega, ?_⟩
    rw [zc]; exact err

/-! ## Parsing -/

theorem digit_ne {c : Char} (h : IsDigit c) (d : Char) (hd : ¬ IsDigit d) : c ≠ d := fun e => hd (e ▸ h)

theorem parseNat_digits {l : Str} (hl : ∀ c ∈ l, IsDigit c) (hne : l ≠ []) :
    parseNat l = some (digitsVal l) := by
  have h := foldlM_digits l hl 0
  cases l with
  | nil => exact absurd rfl hne
  | cons c l => simpa [parseNat] using h

theorem digitsVal_zeros (k : ℕ) (l : Str) : digitsVal (List.replicate k '0' ++ l) = digitsVal l := by
  unfold digitsVal
  rw [List.reverse_append, List.map_append, List.reverse_replicate, List.map_replicate]
  exact ofDigits_append_zeros _ _

theorem parseInt_expText (e : ℤ) : parseInt (expText e) = some e := by
  have h : parseNat (List.replicate (2 - (decNat e.natAbs).length) '0' ++ decNat e.natAbs) =
      some e.natAbs := by
    rw [parseNat_digits, digitsVal_zeros, digitsVal_decNat]
    · intro c hc
      rcases List.mem_append.1 hc with hc | hc
      · rw [List.eq_of_mem_replicate hc]; decide
      · exact decNat_isDigit hc
    · intro h
      exact decNat_ne_nil _ (List.append_eq_nil_iff.1 h).2
  unfold expText
  split_ifs with hz
  · simp only [parseInt, h, Option.map_some]; congr 1; omega
  · simp only [parseInt, h, Option.map_some]; congr 1; omega

theorem takeWhile_stop {p : Char → Bool} {l : Str} (hl : ∀ c ∈ l, p c = true) {a : Char} (ha : p a = false)
    (r : Str) : (l ++ a :: r).takeWhile p = l := by
  induction l with
  | nil => simp [ha]
  | cons c l ih =>
    rw [List.cons_append, List.takeWhile_cons, if_pos (hl c (by simp)), ih fun c hc => hl c (by simp [hc])]

theorem dropWhile_stop {p : Char → Bool} {l : Str} (hl : ∀ c ∈ l, p c = true) {a : Char} (ha : p a = false)
    (r : Str) : (l ++ a :: r).dropWhile p = a :: r := by
  induction l with
  | nil => simp [ha]
  | cons c l ih =>
    rw [List.cons_append, List.dropWhile_cons, if_pos (hl c (by simp)), ih fun c hc => hl c (by simp [hc])]

theorem parseDec_sciText {ds : Str} (hd : ∀ c ∈ ds, IsDigit c) (hlen : ds.length = 19) (e : ℤ) :
    parseDec (sciText ds e) = some ((digitsVal ds : ℝ) * 10 ^ (e - 18)) := by
  have h1 : ∀ c ∈ ds.take 1, IsDigit c := fun c hc => hd c (List.mem_of_mem_take hc)
  have h2 : ∀ c ∈ ds.drop 1, IsDigit c := fun c hc => hd c (List.mem_of_mem_drop hc)
  have hm : ∀ c ∈ ds.take 1 ++ '.' :: ds.drop 1, (decide (c ≠ 'e')) = true := by
    intro c hc
    rw [decide_eq_true_eq]
    rcases List.mem_append.1 hc with hc | hc
    · exact digit_ne (h1 c hc) _ (by decide)
    · rcases List.mem_cons.1 hc with rfl | hc
      · decide
      · exact digit_ne (h2 c hc) _ (by decide)
  have hp : ∀ c ∈ ds.take 1, (decide (c ≠ '.')) = true := fun c hc => by
    rw [decide_eq_true_eq]; exact digit_ne (h1 c hc) _ (by decide)
  unfold parseDec sciText
  rw [takeWhile_stop hm (by simp), dropWhile_stop hm (by simp)]
  simp only [takeWhile_stop hp (show decide ('.' ≠ '.') = false by simp),
    dropWhile_stop hp (show decide ('.' ≠ '.') = false by simp), parseInt_expText, List.drop_succ_cons, List.drop_zero, List.take_append_drop,
    Option.bind_eq_bind, Option.bind_some, Option.pure_def]
  rw [parseNat_digits hd (by rintro rfl; simp at hlen)]
  simp [hlen]

theorem decNat_length19 {d : ℕ} (h1 : 10 ^ 18 ≤ d) (h2 : d < 10 ^ 19) : (decNat d).length = 19 := by
  unfold decNat
  rw [if_neg (by intro h; omega), List.length_map, List.length_reverse]
  have a := (Nat.digits_length_le_iff (b := 10) (k := 19) (by norm_num) d).2 h2
  have b := (Nat.lt_digits_length_iff (b := 10) (k := 18) (by norm_num) d).2 h1
  omega

/-- The text of one number is read as this number. -/
theorem parse_fmt18 {rd : ℝ → Fl} (hrd : Spec.Reader rd) {x : Fl} (hx : Spec.Double x) :
    parseFloat rd (fmt18 x) = some x := by
  cases x with
  | nan => rfl
  | pinf => rfl
  | ninf => rfl
  | fin x =>
    have key : ∀ (ds : Str) (e : ℤ), (∀ c ∈ ds, IsDigit c) → ds.length = 19 →
        parseFloat rd (sciText ds e) = some (rd ((digitsVal ds : ℝ) * 10 ^ (e - 18))) ∧
        parseFloat rd ('-' :: sciText ds e) = some (rd (-((digitsVal ds : ℝ) * 10 ^ (e - 18)))) := by
      intro ds e hd hlen
      have hp := parseDec_sciText hd hlen e
      cases ds with
      | nil => simp at hlen
      | cons c ds =>
        have hc : IsDigit c := hd c (by simp)
        have es : sciText (c :: ds) e = c :: ('.' :: ds ++ 'e' :: expText e) := by simp [sciText]
        rw [es] at hp ⊢
        have a1 := digit_ne hc 'n' (by decide)
        have a2 := digit_ne hc 'i' (by decide)
        have a3 := digit_ne hc '-' (by decide)
        have a4 := digit_ne hc '+' (by decide)
        constructor
        · unfold parseFloat
          rw [if_neg (by simp [a1]), if_neg (by simp [a2]), if_neg (by simp [a3])]
          split
          · rename_i heq; simp only [List.cons.injEq] at heq; exact absurd heq.1 a3
          · rename_i heq; simp only [List.cons.injEq] at heq; exact absurd heq.1 a4
          · rw [hp]; rfl
        · unfold parseFloat
          rw [if_neg (by simp), if_neg (by simp), if_neg (by simp [a2])]
          simp only [hp, Option.map_some]
    by_cases h0 : x = 0
    · subst h0
      have hf : fmt18 (.fin 0) = sciText (List.replicate 19 '0') 0 := by simp [fmt18]
      rw [hf, (key _ 0 (fun c hc => by rw [List.eq_of_mem_replicate hc]; decide) (by simp)).1]
      have : digitsVal (List.replicate 19 '0') = 0 := by
        have := digitsVal_zeros 19 []; simpa [digitsVal] using this
      rw [this]
      congr 1
      exact read_near hrd hx (by simp)
    · obtain ⟨d1, d2, herr⟩ := sci_spec h0
      have kk := key (decNat (sci x).1) (sci x).2 (fun c hc => decNat_isDigit hc) (decNat_length19 d1 d2)
      rw [digitsVal_decNat] at kk
      by_cases hneg : x < 0
      · have hf : fmt18 (.fin x) = '-' :: sciText (decNat (sci x).1) (sci x).2 := by
          simp [fmt18, h0, hneg]
        rw [hf, kk.2]
        congr 1
        refine read_near hrd hx ?_
        rw [abs_of_neg hneg] at herr ⊢
        rw [← abs_neg, show -(-(((sci x).1 : ℝ) * 10 ^ ((sci x).2 - 18)) - x) =
          ((sci x).1 : ℝ) * 10 ^ ((sci x).2 - 18) - -x by ring]
        exact herr
      · have hf : fmt18 (.fin x) = sciText (decNat (sci x).1) (sci x).2 := by
          simp [fmt18, h0, hneg]
        rw [hf, kk.1]
        congr 1
        refine read_near hrd hx ?_
        rw [abs_of_nonneg (not_lt.1 hneg)] at herr ⊢
        exact herr

/-! ## Lines -/

/-- The lines with words. -/
noncomputable def csvRows (s : Str) : List (List Str) :=
  ((s.splitOnP fun c => c = '\n' ∨ c = '\r').map fun l => words (l.takeWhile (· ≠ '#'))).filter
    fun l => !l.isEmpty

theorem csvRows_line {s : Str} (hs : '\n' ∉ s) (hs' : '\r' ∉ s) (r : Str) :
    csvRows (s ++ '\n' :: r) =
      (if words (s.takeWhile (· ≠ '#')) = [] then [] else [words (s.takeWhile (· ≠ '#'))]) ++ csvRows r := by
  unfold csvRows
  rw [List.splitOnP_append_cons_of_forall_mem
    (fun c hc => by
      have h1 : c ≠ '\n' := fun h => hs (h ▸ hc)
      have h2 : c ≠ '\r' := fun h => hs' (h ▸ hc)
      simp [h1, h2]) '\n' (by simp)]
  rw [List.map_cons, List.filter_cons]
  generalize words (s.takeWhile (· ≠ '#')) = w
  cases w <;> simp

theorem csvRows_header (h p r : Str) (hp : '\n' ∉ p) (hp' : '\r' ∉ p) (hh : '\r' ∉ h) :
    csvRows ('#' :: p ++ (commentHeader h ++ '\n' :: r)) = csvRows r := by
  induction h generalizing p with
  | nil =>
    have := csvRows_line (s := '#' :: p) (by simpa using hp) (by simpa using hp') r
    simpa [commentHeader, words_nil] using this
  | cons c h ih =>
    have hh' : '\r' ∉ h := fun hm => hh (List.mem_cons_of_mem _ hm)
    have hc' : c ≠ '\r' := fun e => hh (e ▸ List.mem_cons_self)
    by_cases hc : c = '\n'
    · subst hc
      have e : '#' :: p ++ (commentHeader ('\n' :: h) ++ '\n' :: r) =
          ('#' :: p) ++ '\n' :: ('#' :: [' '] ++ (commentHeader h ++ '\n' :: r)) := by
        simp [commentHeader]
      rw [e, csvRows_line (by simpa using hp) (by simpa using hp'), ih [' '] (by simp) (by simp) hh']
      simp [words_nil]
    · have e : '#' :: p ++ (commentHeader (c :: h) ++ '\n' :: r) =
          '#' :: (p ++ [c]) ++ (commentHeader h ++ '\n' :: r) := by
        simp [commentHeader, hc]
      rw [e, ih (p ++ [c]) (by simp [hp, Ne.symm hc]) (by simp [hp', hc'.symm]) hh']

theorem words_spaced (l : List Str) (hl : ∀ w ∈ l, w ≠ [] ∧ ∀ c ∈ w, c ≠ ' ' ∧ c ≠ '\t') :
    words (" ".toList.intercalate l) = l := by
  induction l with
  | nil => rfl
  | cons w l ih =>
    obtain ⟨hne, hw⟩ := hl w (by simp)
    cases l with
    | nil => rw [List.intercalate_singleton]; exact words_word hw hne
    | cons w' l =>
      rw [List.intercalate_cons_cons]
      have : w ++ " ".toList ++ " ".toList.intercalate (w' :: l) =
          w ++ ' ' :: (" ".toList.intercalate (w' :: l)) := by simp
      rw [this, words_cons hw hne, ih fun w hw => hl w (by simp [hw])]

theorem sciText_chars {ds : Str} (hd : ∀ c ∈ ds, IsDigit c) {e : ℤ} {c : Char} (h : c ∈ sciText ds e) :
    IsDigit c ∨ c ∈ "nanif-+.e".toList := by
  unfold sciText expText at h
  simp only [List.mem_append, List.mem_cons] at h
  rcases h with ((h | h | h) | h)
  · exact .inl (hd _ (List.mem_of_mem_take h))
  · subst h; exact .inr (by decide)
  · exact .inl (hd _ (List.mem_of_mem_drop h))
  · rcases h with h | h | h | h
    · subst h; exact .inr (by decide)
    · split_ifs at h <;> subst h <;> exact .inr (by decide)
    · rw [List.eq_of_mem_replicate h]; exact .inl (by decide)
    · exact .inl (decNat_isDigit h)

theorem fmt18_chars {x : Fl} {c : Char} (h : c ∈ fmt18 x) : IsDigit c ∨ c ∈ "nanif-+.e".toList := by
  cases x with
  | nan => exact .inr (by revert h; simp [fmt18]; tauto)
  | pinf => exact .inr (by revert h; simp [fmt18]; tauto)
  | ninf => exact .inr (by revert h; simp [fmt18]; tauto)
  | fin x =>
    simp only [fmt18] at h
    split_ifs at h
    · exact sciText_chars (fun c hc => by rw [List.eq_of_mem_replicate hc]; decide) h
    · rcases List.mem_append.1 h with h | h
      · rw [List.mem_singleton] at h; subst h; exact .inr (by decide)
      · exact sciText_chars (fun c hc => decNat_isDigit hc) h
    · exact sciText_chars (fun c hc => decNat_isDigit hc) (by simpa using h)

theorem fmt18_ne {x : Fl} {c : Char} (h : c ∈ fmt18 x) :
    c ≠ ' ' ∧ c ≠ '\t' ∧ c ≠ '\n' ∧ c ≠ '\r' ∧ c ≠ '#' := by
  rcases fmt18_chars h with h | h
  · refine ⟨?_, ?_, ?_, ?_, ?_⟩ <;> exact digit_ne h _ (by decide)
  · refine ⟨?_, ?_, ?_, ?_, ?_⟩ <;> rintro rfl <;> exact absurd h (by decide)

theorem fmt18_ne_nil (x : Fl) : fmt18 x ≠ [] := by
  cases x with
  | fin x => simp only [fmt18]; split_ifs <;> simp [sciText]
  | _ => simp [fmt18]

theorem csvRows_rows (rows : List (List Fl)) (hr : ∀ r ∈ rows, r ≠ []) :
    csvRows (rows.flatMap fun r => " ".toList.intercalate (r.map fmt18) ++ ['\n']) =
      rows.map fun r => r.map fmt18 := by
  induction rows with
  | nil => simp [csvRows, words_nil]
  | cons r rows ih =>
    have hc : ∀ c ∈ " ".toList.intercalate (r.map fmt18), c ≠ '\n' ∧ c ≠ '\r' ∧ c ≠ '#' := by
      intro c hc
      rcases mem_intercalate hc with h | ⟨w, hw, hcw⟩
      · have : c = ' ' := by simpa using h
        subst this; decide
      · obtain ⟨x, -, rfl⟩ := List.mem_map.1 hw
        exact (fmt18_ne hcw).2.2
    have hw : words (" ".toList.intercalate (r.map fmt18)) = r.map fmt18 := by
      refine words_spaced _ fun w hw => ?_
      obtain ⟨x, -, rfl⟩ := List.mem_map.1 hw
      exact ⟨fmt18_ne_nil x, fun c hc => ⟨(fmt18_ne hc).1, (fmt18_ne hc).2.1⟩⟩
    have ht : (" ".toList.intercalate (r.map fmt18)).takeWhile (· ≠ '#') =
        " ".toList.intercalate (r.map fmt18) :=
      by
      rw [List.takeWhile_eq_self_iff]; exact fun c h => by simpa using (hc c h).2.2
    rw [List.flatMap_cons, List.append_assoc, List.singleton_append, csvRows_line
      (fun h => (hc _ h).1 rfl) (fun h => (hc _ h).2.1 rfl), ih fun r h => hr r (by simp [h]), ht, hw,
      if_neg (by simpa using hr r (by simp))]
    rfl

/-! ## The theorems -/

/-- **C92**. What is stored in a csv file is read back without any change: for every header (several lines,
with `#`), every table of doubles, of nan and of infinities, and every correct conversion of decimal numbers. -/
theorem C92_exact {rd : ℝ → Fl} (hrd : Spec.Reader rd) (header : Str) (hh : '\r' ∉ header)
    (rows : List (List Fl)) (n : ℕ) (hn : n ≠ 0) (hlen : ∀ r ∈ rows, r.length = n)
    (hd : ∀ r ∈ rows, ∀ x ∈ r, Spec.Double x) :
    genfromtxt rd (savetxt header rows) = .ok rows := by
  have h1 : csvRows (savetxt header rows) = rows.map fun r => r.map fmt18 := by
    have e : savetxt header rows = '#' :: [' '] ++ (commentHeader header ++ '\n' ::
        rows.flatMap fun r => " ".toList.intercalate (r.map fmt18) ++ ['\n']) := by
      simp [savetxt]
    rw [e, csvRows_header _ _ _ (by simp) (by simp) hh,
      csvRows_rows rows fun r hr h0 => hn (by rw [← hlen r hr, h0]; rfl)]
  unfold genfromtxt
  simp only
  rw [show ((List.splitOnP (fun c => decide (c = '\n' ∨ c = '\r')) (savetxt header rows)).map fun l =>
    words (l.takeWhile (· ≠ '#'))).filter (fun l => !l.isEmpty) = csvRows (savetxt header rows) from rfl, h1]
  cases rows with
  | nil => rfl
  | cons r rs =>
    rw [List.map_cons]
    simp only
    rw [if_pos]
    · congr 1
      rw [← List.map_cons (f := fun r => List.map fmt18 r), List.map_map]
      conv_rhs => rw [← List.map_id (r :: rs)]
      refine List.map_congr_left fun r' hr' => ?_
      simp only [Function.comp, List.map_map, id]
      conv_rhs => rw [← List.map_id r']
      refine List.map_congr_left fun x hx => ?_
      simp only [Function.comp, id, parse_fmt18 hrd (hd r' hr' x hx), Option.getD_some]
    · rw [List.all_eq_true]
      intro r' hr'
      obtain ⟨r0, h0, rfl⟩ := List.mem_map.1 hr'
      simp [hlen r0 (by simp [h0]), hlen r (by simp)]

/-- **C92**. The observation of a run is read back from its files as it was given to `fit_zpoly`, bit by bit. -/
theorem C92_observation {rd : ℝ → Fl} (hrd : Spec.Reader rd) {N M : ℕ} (a : Verif.Fit.Input N M)
    (fs fs' : FS Content) (d : Path) (h : (Verif.Fit.fitZpoly a).run fs = (.ok d, fs'))
    (hd : fs d = none ∨ isDir fs d) (hn : 1 ≤ a.orderMax) (hM : M ≠ 0) (hname : '\r' ∉ a.name)
    (hb : ∀ q, Spec.Double (a.beam q)) (hu : ∀ q, Spec.IsDouble (a.u q)) (hv : ∀ q, Spec.IsDouble (a.v q)) :
    ∃ (t1 t2 t3 : Str) (beam u v : List (List Fl)),
      fs' ("beam_data.csv".toList :: d) = some (.file (.csv t1 beam)) ∧
      genfromtxt rd (savetxt t1 beam) = .ok (List.ofFn fun i : Fin 3 => List.ofFn fun j => a.beam (i, j)) ∧
      fs' ("u_data.csv".toList :: d) = some (.file (.csv t2 u)) ∧
      genfromtxt rd (savetxt t2 u) = .ok (List.ofFn fun i : Fin 3 => List.ofFn fun j => .fin (a.u (i, j))) ∧
      fs' ("v_data.csv".toList :: d) = some (.file (.csv t3 v)) ∧
      genfromtxt rd (savetxt t3 v) = .ok (List.ofFn fun i : Fin 3 => List.ofFn fun j => .fin (a.v (i, j))) := by
  have grid : ∀ (A : Fin 3 → Fin M → Fl) (t : Str) (rows : List (List Fl)), Spec.Grid A rows →
      '\r' ∉ t → (∀ i j, Spec.Double (A i j)) →
      genfromtxt rd (savetxt t rows) = .ok (List.ofFn fun i : Fin 3 => List.ofFn fun j => A i j) := by
    intro A t rows hg ht hA
    rw [hg]
    refine C92_exact hrd t ht _ M hM (fun r hr => ?_) (fun r hr x hx => ?_)
    · obtain ⟨i, rfl⟩ := List.mem_ofFn.1 hr; simp
    · obtain ⟨i, rfl⟩ := List.mem_ofFn.1 hr
      obtain ⟨j, rfl⟩ := List.mem_ofFn.1 hx
      exact hA i j
  obtain ⟨s, beam, u, v, i, -, h1, g1, h2, g2, h3, g3, -⟩ := C67_observation a fs fs' d h hd hn
  exact ⟨_, _, _, beam, u, v, h1, grid _ _ _ g1 (by simp [hname]) fun i j => hb _,
    h2, grid _ _ _ g2 (by simp [hname]) fun i j => hu _, h3, grid _ _ _ g3 (by simp [hname]) fun i j => hv _⟩

/-! ## Cases -/

theorem doubles_finite : {x : ℝ | Spec.IsDouble x}.Finite := by
  refine ((Set.finite_Icc (-(2 : ℤ) ^ 53) (2 ^ 53)).prod (Set.finite_Icc (-1074 : ℤ) 971)).image
    (fun p : ℤ × ℤ => (p.1 : ℝ) * (2 : ℝ) ^ p.2) |>.subset ?_
  rintro x ⟨m, q, hm, h1, h2, rfl⟩
  rw [abs_lt] at hm
  exact ⟨(m, q), ⟨⟨hm.1.le, hm.2.le⟩, h1, h2⟩, rfl⟩

/-- There is a correct conversion. -/
theorem reader_exists : ∃ rd, Spec.Reader rd := by
  have h : ∀ y : ℝ, ∃ z, Spec.IsDouble z ∧ ∀ w, Spec.IsDouble w → |y - z| ≤ |y - w| := fun y =>
    Set.exists_min_image _ (fun w => |y - w|) doubles_finite ⟨0, 0, 0, by norm_num, by norm_num, by norm_num, by simp⟩
  choose f hf using h
  exact ⟨fun y => .fin (f y), fun y _ => ⟨f y, rfl, hf y⟩⟩

/-- A table with a number that has no finite decimal expansion of nineteen digits, nan and an infinity, under
a header of two lines. -/
example : ∃ rd, Spec.Reader rd ∧
    genfromtxt rd (savetxt "Phase\n1 2 # obs".toList [[.fin (2 ^ (-1074 : ℤ)), .nan], [.fin (-3 / 4), .ninf]]) =
      .ok [[.fin (2 ^ (-1074 : ℤ)), .nan], [.fin (-3 / 4), .ninf]] := by
  obtain ⟨rd, hrd⟩ := reader_exists
  refine ⟨rd, hrd, C92_exact hrd _ (by decide) _ 2 (by norm_num) (by simp) ?_⟩
  have h1 : Spec.IsDouble (2 ^ (-1074 : ℤ)) := ⟨1, -1074, by norm_num, by norm_num, by norm_num, by simp⟩
  have h2 : Spec.IsDouble (-3 / 4) := ⟨-3, -2, by norm_num, by norm_num, by norm_num, by norm_num⟩
  intro r hr x hx
  simp only [List.mem_cons, List.not_mem_nil, or_false] at hr
  rcases hr with rfl | rfl <;> simp only [List.mem_cons, List.not_mem_nil, or_false] at hx <;>
    rcases hx with rfl | rfl <;> first | exact h1 | exact h2 | trivial

theorem isDouble_nat {n : ℕ} (h : n < 2 ^ 53) : Spec.IsDouble n :=
  ⟨n, 0, by rw [Nat.abs_cast]; exact_mod_cast h, by norm_num, by norm_num, by simp⟩

/-- The observation of the sample run. -/
example : ∃ rd d fs', Spec.Reader rd ∧ (Verif.Fit.fitZpoly sampleInput).run sampleFs = (.ok d, fs') ∧
    ∃ t rows, fs' ("beam_data.csv".toList :: d) = some (.file (.csv t rows)) ∧
      genfromtxt rd (savetxt t rows) = .ok (List.replicate 3 [.fin 0, .fin 1, .fin 2, .fin 3, .fin 4]) := by
  obtain ⟨rd, hrd⟩ := reader_exists
  obtain ⟨d, fs', h⟩ := sample_run
  have hd : sampleFs d = none := by
    rcases C45_directory _ _ _ _ h with ⟨i, hi, hdi, hdn, -⟩ | ⟨h1, -⟩
    · exact hdn
    · rw [h1]; simp [Spec.runDir, sampleInput, sampleFs]
  obtain ⟨t, -, -, rows, -, -, h1, h2, -⟩ := C92_observation hrd sampleInput _ _ _ h (.inl hd)
    (by simp [sampleInput]) (by norm_num) (by decide)
    (fun q => isDouble_nat (n := q.2) (by have := q.2.isLt; omega))
    (fun q => isDouble_nat (n := q.2) (by have := q.2.isLt; omega))
    (fun q => isDouble_nat (n := q.1) (by have := q.1.isLt; omega))
  refine ⟨rd, d, fs', hrd, h, t, rows, h1, ?_⟩
  rw [h2]
  simp [sampleInput, List.ofFn_succ]
  norm_num

end Verif.Props
