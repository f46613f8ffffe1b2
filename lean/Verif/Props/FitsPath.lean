import Verif.Model.AuxFn
import Mathlib.Tactic.NormNum

/-! # C48, C49: FITS files -/

namespace Verif.Props

open Verif Verif.AuxFn

/-! ## Specification -/

/-- `p` is `dir`, `name`, `.fits`: the directory part is empty or ends with a slash, the name has no
slash and is not made of dots only. -/
structure Spec.FitsPath (p dir name : Str) : Prop where
  eq : p = dir ++ name ++ ".fits".toList
  dir : dir = [] ∨ ∃ d, dir = d ++ ['/']
  slash : '/' ∉ name
  dots : ∃ c ∈ name, c ≠ '.'

/-- `dir` is `head` and slashes: nothing, slashes only, or `head` without slash at the end and at
least one slash. -/
def Spec.IsHead (dir head : Str) : Prop :=
  (dir = [] ∧ head = []) ∨ (head = dir ∧ ∃ k, dir = List.replicate (k + 1) '/') ∨
  ∃ k h c, head = h ++ [c] ∧ c ≠ '/' ∧ dir = head ++ List.replicate (k + 1) '/'

/-! ## `os.path` -/

theorem rfind_append (c : Char) (a b : Str) (hb : c ∉ b) : rfind c (a ++ c :: b) = a.length := by
  induction a with
  | nil => simp [rfind, hb]
  | cons x a ih =>
    rw [List.cons_append, rfind, if_pos (by simp), ih]
    simp

theorem rfind_none (c : Char) (a : Str) (ha : c ∉ a) : rfind c a = -1 := by
  cases a with
  | nil => rfl
  | cons x a =>
    rw [List.mem_cons, not_or] at ha
    rw [rfind, if_neg ha.2, if_neg (fun h => ha.1 h.symm)]

theorem rfind_lt (c : Char) (a : Str) : rfind c a < a.length := by
  induction a with
  | nil => simp [rfind]
  | cons x a ih =>
    rw [rfind, List.length_cons]
    push_cast
    split_ifs <;> omega

/-- The last occurrence of a character. -/
theorem last_split (c : Char) (p : Str) : c ∉ p ∨ ∃ a b, p = a ++ c :: b ∧ c ∉ b := by
  induction p with
  | nil => left; simp
  | cons x p ih =>
    rcases ih with h | ⟨a, b, rfl, hb⟩
    · by_cases hx : x = c
      · subst hx
        exact .inr ⟨[], p, rfl, h⟩
      · left
        rw [List.mem_cons, not_or]
        exact ⟨fun h' => hx h'.symm, h⟩
    · exact .inr ⟨x :: a, b, rfl, hb⟩

/-- Directory part and base name. -/
theorem dir_base (p : Str) : ∃ dir base, p = dir ++ base ∧ '/' ∉ base ∧
    (dir = [] ∨ ∃ d, dir = d ++ ['/']) ∧ rfind '/' p + 1 = dir.length := by
  rcases last_split '/' p with h | ⟨a, b, rfl, hb⟩
  · exact ⟨[], p, rfl, h, .inl rfl, by rw [rfind_none _ _ h]; rfl⟩
  · refine ⟨a ++ ['/'], b, by simp, hb, .inr ⟨a, rfl⟩, ?_⟩
    rw [rfind_append _ _ _ hb]
    simp

theorem dir_base_unique {dir base dir' base' : Str} (h : dir ++ base = dir' ++ base')
    (hb : '/' ∉ base) (hb' : '/' ∉ base') (hd : dir = [] ∨ ∃ d, dir = d ++ ['/'])
    (hd' : dir' = [] ∨ ∃ d, dir' = d ++ ['/']) : dir = dir' ∧ base = base' := by
  suffices hl : dir.length = dir'.length from List.append_inj h hl
  have key : ∀ dir base : Str, '/' ∉ base → (dir = [] ∨ ∃ d, dir = d ++ ['/']) →
      rfind '/' (dir ++ base) + 1 = dir.length := by
    rintro dir base hb (rfl | ⟨d, rfl⟩)
    · rw [List.nil_append, rfind_none _ _ hb]; rfl
    · rw [List.append_assoc, List.singleton_append, rfind_append _ _ _ hb]
      simp
  have h1 := key dir base hb hd
  have h2 := key dir' base' hb' hd'
  rw [h] at h1
  omega

/-- `splitext` in terms of the base name. -/
theorem splitext_dot {dir stem ext : Str} (hs : '/' ∉ stem ++ '.' :: ext) (he : '.' ∉ ext)
    (hd : dir = [] ∨ ∃ d, dir = d ++ ['/']) :
    splitext (dir ++ (stem ++ '.' :: ext)) =
      if ∃ c ∈ stem, c ≠ '.' then (dir ++ stem, '.' :: ext) else (dir ++ (stem ++ '.' :: ext), []) := by
  have h1 : rfind '/' (dir ++ (stem ++ '.' :: ext)) + 1 = dir.length := by
    rcases hd with rfl | ⟨d, rfl⟩
    · rw [List.nil_append, rfind_none _ _ hs]; rfl
    · rw [List.append_assoc, List.singleton_append, rfind_append _ _ _ hs]
      simp
  have h2 : rfind '.' (dir ++ (stem ++ '.' :: ext)) = (dir ++ stem).length := by
    rw [← List.append_assoc, rfind_append _ _ _ he]
  unfold splitext
  simp only
  rw [h2, h1]
  have e1 : (dir ++ (stem ++ '.' :: ext)).take ((dir ++ stem).length : ℤ).toNat = dir ++ stem := by
    rw [Int.toNat_natCast, ← List.append_assoc, List.take_left]
  have e2 : (dir ++ (stem ++ '.' :: ext)).drop ((dir ++ stem).length : ℤ).toNat = '.' :: ext := by
    rw [Int.toNat_natCast, ← List.append_assoc, List.drop_left]
  rw [e1, e2, Int.toNat_natCast, List.drop_left]
  have h3 : ((dir ++ stem).length : ℤ) > rfind '/' (dir ++ (stem ++ '.' :: ext)) := by
    rw [List.length_append]
    push_cast
    omega
  simp only [h3, true_and, List.any_eq_true, decide_eq_true_eq]

theorem splitext_nodot {dir base : Str} (hs : '/' ∉ base) (he : '.' ∉ base)
    (hd : dir = [] ∨ ∃ d, dir = d ++ ['/']) : splitext (dir ++ base) = (dir ++ base, []) := by
  have h3 : ¬ rfind '.' (dir ++ base) > rfind '/' (dir ++ base) := by
    rcases hd with rfl | ⟨d, rfl⟩
    · rw [List.nil_append, rfind_none _ _ hs, rfind_none _ _ he]
      omega
    · have h1 : rfind '/' (d ++ ['/'] ++ base) = d.length := by
        rw [List.append_assoc, List.singleton_append, rfind_append _ _ _ hs]
      rw [h1]
      have h0 : ∀ x : Str, '.' ∉ x → ∀ d, rfind '.' (d ++ x) = rfind '.' d := by
        intro x hx d
        induction d with
        | nil => rw [List.nil_append, rfind_none _ _ hx]; rfl
        | cons y d ih =>
          rw [List.cons_append, rfind, rfind, ih]
          simp only [List.mem_append, hx, or_false]
      rw [List.append_assoc, h0 (['/'] ++ base) (by simp [he])]
      have := rfind_lt '.' d
      omega
  unfold splitext
  simp only
  rw [if_neg (fun h => h3 h.1)]

/-- The extension is `.fits` exactly for paths of the form in the specification. -/
theorem splitext_fits (p : Str) :
    (splitext p).2 = ".fits".toList ↔ ∃ dir name, Spec.FitsPath p dir name := by
  constructor
  · intro h
    obtain ⟨dir, base, rfl, hb, hd, -⟩ := dir_base p
    rcases last_split '.' base with hn | ⟨stem, ext, rfl, he⟩
    · rw [splitext_nodot hb hn hd] at h
      cases h
    · rw [splitext_dot hb he hd] at h
      split_ifs at h with hc
      · refine ⟨dir, stem, by rw [← h]; simp, hd, fun hs => hb (List.mem_append_left _ hs), hc⟩
      · cases h
  · rintro ⟨dir, name, rfl, hd, hs, hc⟩
    rw [List.append_assoc, show ".fits".toList = '.' :: "fits".toList from rfl,
      splitext_dot (by simp [hs]) (by decide) hd, if_pos hc]

theorem rstrip_spec (d : Str) (hne : ∃ c ∈ d, c ≠ '/') :
    ∃ k h c, rstrip '/' d = h ++ [c] ∧ c ≠ '/' ∧ d = rstrip '/' d ++ List.replicate k '/' := by
  induction d using List.reverseRecOn with
  | nil => obtain ⟨c, hc, -⟩ := hne; cases hc
  | append_singleton d x ih =>
    by_cases hx : x = '/'
    · subst hx
      have hr : rstrip '/' (d ++ ['/']) = rstrip '/' d := by
        simp [rstrip]
      obtain ⟨k, h, c, e1, e2, e3⟩ := ih (by
        obtain ⟨c, hc, hc'⟩ := hne
        rcases List.mem_append.1 hc with hc | hc
        · exact ⟨c, hc, hc'⟩
        · exact absurd (List.mem_singleton.1 hc) hc')
      refine ⟨k + 1, h, c, by rw [hr, e1], e2, ?_⟩
      rw [hr, List.replicate_succ', ← List.append_assoc, ← e3]
    · refine ⟨0, d, x, ?_, hx, ?_⟩ <;> simp [rstrip, hx]

/-- `os.path.split` of such a path. -/
theorem split_base {dir base : Str} (hb : '/' ∉ base) (hd : dir = [] ∨ ∃ d, dir = d ++ ['/']) :
    (split (dir ++ base)).2 = base ∧ Spec.IsHead dir (split (dir ++ base)).1 := by
  have h1 : rfind '/' (dir ++ base) + 1 = dir.length := by
    rcases hd with rfl | ⟨d, rfl⟩
    · rw [List.nil_append, rfind_none _ _ hb]; rfl
    · rw [List.append_assoc, List.singleton_append, rfind_append _ _ _ hb]
      simp
  unfold split
  simp only
  rw [h1, Int.toNat_natCast, List.take_left, List.drop_left]
  by_cases hc : dir ≠ [] ∧ dir ≠ List.replicate dir.length '/'
  · rw [if_pos hc]
    refine ⟨rfl, .inr (.inr ?_)⟩
    obtain ⟨d, rfl⟩ := hd.resolve_left hc.1
    have hr : rstrip '/' (d ++ ['/']) = rstrip '/' d := by simp [rstrip]
    have hne : ∃ c ∈ d, c ≠ '/' := by
      by_contra hn
      push Not at hn
      refine hc.2 (List.eq_replicate_of_mem fun c hc => ?_)
      rcases List.mem_append.1 hc with h | h
      · exact hn c h
      · exact List.mem_singleton.1 h
    obtain ⟨k, h, c, e1, e2, e3⟩ := rstrip_spec d hne
    refine ⟨k, h, c, by rw [hr, e1], e2, ?_⟩
    rw [hr, List.replicate_succ', ← List.append_assoc, ← e3]
  · rw [if_neg hc]
    refine ⟨rfl, ?_⟩
    by_cases h0 : dir = []
    · exact .inl ⟨h0, h0⟩
    · refine .inr (.inl ⟨rfl, ?_⟩)
      have : dir = List.replicate dir.length '/' := by
        by_contra h; exact hc ⟨h0, h⟩
      obtain ⟨d, rfl⟩ := hd.resolve_left h0
      refine ⟨d.length, ?_⟩
      rw [List.length_append, List.length_singleton] at this
      exact this

theorem dropLast5_fits (name : Str) : dropLast5 (name ++ ".fits".toList) = name := by
  unfold dropLast5
  have : (name ++ ".fits".toList).length - 5 = name.length := by simp
  rw [this, List.take_left]

/-! ## C48 -/

/-- **C48**. A path that is not of the form `dir/name.fits` is a `ValueError`, whatever the file. -/
theorem C48_rejected (fitsOpen : Str → Py (List Hdu)) (p : Str)
    (h : ¬ ∃ dir name, Spec.FitsPath p dir name) :
    extractPyoof fitsOpen p = .error .valueError ∧ extractEffelsberg fitsOpen p = .error .valueError := by
  rw [← splitext_fits] at h
  constructor
  · unfold extractPyoof
    rw [if_pos h]
    rfl
  · unfold extractEffelsberg
    rw [if_pos h]
    rfl

theorem extractPyoof_ok {fitsOpen : Str → Py (List Hdu)} {p : Str} {x : Extract}
    (h : extractPyoof fitsOpen p = .ok x) : (splitext p).2 = ".fits".toList ∧
      x.name = dropLast5 (split p).2 ∧ x.pthto = (split p).1 := by
  unfold extractPyoof at h
  by_cases hs : (splitext p).2 ≠ ".fits".toList
  · rw [if_pos hs] at h; cases h
  refine ⟨not_not.1 hs, ?_⟩
  rw [if_neg hs] at h
  simp only [bind, Except.bind, pure, Except.pure] at h
  repeat' split at h
  all_goals first
    | cases h; done
    | (cases h; exact ⟨rfl, rfl⟩)

theorem extractEffelsberg_ok {fitsOpen : Str → Py (List Hdu)} {p : Str} {x : Extract}
    (h : extractEffelsberg fitsOpen p = .ok x) : (splitext p).2 = ".fits".toList ∧
      x.name = dropLast5 (split p).2 ∧ x.pthto = (split p).1 := by
  unfold extractEffelsberg at h
  by_cases hs : (splitext p).2 ≠ ".fits".toList
  · rw [if_pos hs] at h; cases h
  refine ⟨not_not.1 hs, ?_⟩
  rw [if_neg hs] at h
  simp only [bind, Except.bind, pure, Except.pure] at h
  repeat' split at h
  all_goals first
    | cases h; done
    | (cases h; exact ⟨rfl, rfl⟩)

/-- **C48**. When one of the functions returns, the path is `dir/name.fits` for one pair of `dir` and
`name` only, `name` is what is returned, and the returned directory is `dir` without the slashes
at its end (unless it is made of slashes only). -/
theorem C48_name (fitsOpen : Str → Py (List Hdu)) (p : Str) (x : Extract)
    (h : extractPyoof fitsOpen p = .ok x ∨ extractEffelsberg fitsOpen p = .ok x) :
    ∃ dir, Spec.FitsPath p dir x.name ∧ Spec.IsHead dir x.pthto ∧
      ∀ dir' name', Spec.FitsPath p dir' name' → dir' = dir ∧ name' = x.name := by
  have h' : (splitext p).2 = ".fits".toList ∧ x.name = dropLast5 (split p).2 ∧ x.pthto = (split p).1 := by
    rcases h with h | h
    · exact extractPyoof_ok h
    · exact extractEffelsberg_ok h
  obtain ⟨h1, h2, h3⟩ := h'
  obtain ⟨dir, name, hp⟩ := (splitext_fits p).1 h1
  have hsl : ∀ n : Str, '/' ∉ n → '/' ∉ n ++ ".fits".toList := by
    intro n hn hm
    rcases List.mem_append.1 hm with hm | hm
    · exact hn hm
    · exact absurd hm (by decide)
  obtain ⟨e1, e2⟩ := split_base (base := name ++ ".fits".toList) (hsl _ hp.slash) hp.dir
  have hpe := hp.eq
  rw [List.append_assoc] at hpe
  rw [← hpe] at e1 e2
  rw [e1, dropLast5_fits] at h2
  refine ⟨dir, by rw [h2]; exact hp, by rw [h3]; exact e2, fun dir' name' hp' => ?_⟩
  have hpe' := hp'.eq
  rw [List.append_assoc] at hpe'
  obtain ⟨r1, r2⟩ := dir_base_unique (hpe'.symm.trans hpe) (hsl _ hp'.slash) (hsl _ hp.slash) hp'.dir hp.dir
  exact ⟨r1, by rw [h2]; exact List.append_cancel_right r2⟩

/-- Two hidden files: `.fits` has no extension, `..fits` has a name of dots only. -/
example (o : Str → Py (List Hdu)) : extractPyoof o "data/.fits".toList = .error .valueError ∧
    extractPyoof o "data/..fits".toList = .error .valueError ∧
    extractPyoof o "data/a.FITS".toList = .error .valueError ∧
    extractPyoof o "data/a.fits/b".toList = .error .valueError := by
  refine ⟨?_, ?_, ?_, ?_⟩ <;> rfl

/-! ## C49 -/

/-- An HDU with a keyword and a value. -/
def Spec.HasKey (h : Hdu) (k : String) (v : HVal) : Prop := h.header.lookup k.toList = some v

/-- An HDU with a column. -/
def Spec.HasCol (h : Hdu) (k : String) (c : List ℝ) : Prop := h.data.lookup k.toList = some c

/-- The three maps of an extract are those of the HDUs with the given numbers, in this order, for
the columns with the given names. -/
def Spec.MapsAre (x : Extract) (l : List Hdu) (i j k : ℕ) (beam u v : String) : Prop :=
  x.dz.length = 3 ∧ x.beam.length = 3 ∧ x.u.length = 3 ∧ x.v.length = 3 ∧
  ∀ m n, (m = 0 ∧ n = i) ∨ (m = 1 ∧ n = j) ∨ (m = 2 ∧ n = k) →
    ∃ h, l[n]? = some h ∧ Spec.HasKey h "DZ" (.num (x.dz.getD m 0)) ∧
      Spec.HasCol h beam (x.beam.getD m []) ∧ Spec.HasCol h u (x.u.getD m []) ∧
      Spec.HasCol h v (x.v.getD m [])

theorem mapM3_ok {α : Type} {f : ℕ → Py α} {i j k : ℕ} {r : List α} (h : [i, j, k].mapM f = .ok r) :
    ∃ a b c, r = [a, b, c] ∧ f i = .ok a ∧ f j = .ok b ∧ f k = .ok c := by
  simp only [List.mapM_cons, List.mapM_nil, bind, Except.bind, pure, Except.pure] at h
  cases ha : f i with
  | error e => rw [ha] at h; cases h
  | ok a =>
    cases hb : f j with
    | error e => rw [ha, hb] at h; cases h
    | ok b =>
      cases hc : f k with
      | error e => rw [ha, hb, hc] at h; cases h
      | ok c => rw [ha, hb, hc] at h; cases h; exact ⟨a, b, c, rfl, rfl, rfl, rfl⟩

theorem hduAt_ok {l : List Hdu} {i : ℕ} {h : Hdu} (e : hduAt l i = .ok h) : l[i]? = some h := by
  unfold hduAt at e
  split at e
  · cases e; assumption
  · cases e

theorem key_ok {h : Hdu} {k : String} {v : HVal} (e : h.key k = .ok v) : Spec.HasKey h k v := by
  unfold Hdu.key at e
  split at e
  · cases e; assumption
  · cases e

theorem col_ok {h : Hdu} {k : String} {v : List ℝ} (e : h.col k = .ok v) : Spec.HasCol h k v := by
  unfold Hdu.col at e
  split at e
  · cases e; assumption
  · cases e

theorem quantity_ok {v : HVal} {r : ℝ} (e : v.quantity = .ok r) : v = .num r := by
  cases v with
  | num x => cases e; rfl
  | str s => cases e

theorem colAt_ok {l : List Hdu} {i : ℕ} {k : String} {c : List ℝ}
    (e : (do (← hduAt l i).col k : Py (List ℝ)) = .ok c) : ∃ h, l[i]? = some h ∧ Spec.HasCol h k c := by
  simp only [bind, Except.bind] at e
  split at e
  · cases e
  · rename_i h he
    exact ⟨h, hduAt_ok he, col_ok e⟩

theorem dzAt_ok {l : List Hdu} {i : ℕ} {r : ℝ}
    (e : (do (← (← hduAt l i).key "DZ").quantity : Py ℝ) = .ok r) :
    ∃ h, l[i]? = some h ∧ Spec.HasKey h "DZ" (.num r) := by
  simp only [bind, Except.bind] at e
  split at e
  · cases e
  · rename_i v he
    split at e
    · cases e
    · rename_i w hw
      rw [quantity_ok e] at hw
      exact ⟨v, hduAt_ok he, key_ok hw⟩

theorem mapsAre_of {l : List Hdu} {i j k : ℕ} {beam u v : String} {x : Extract}
    (h1 : [i, j, k].mapM (fun i => (do (← hduAt l i).col beam : Py (List ℝ))) = .ok x.beam)
    (h2 : [i, j, k].mapM (fun i => (do (← hduAt l i).col u : Py (List ℝ))) = .ok x.u)
    (h3 : [i, j, k].mapM (fun i => (do (← hduAt l i).col v : Py (List ℝ))) = .ok x.v)
    (h4 : [i, j, k].mapM (fun i => (do (← (← hduAt l i).key "DZ").quantity : Py ℝ)) = .ok x.dz) :
    Spec.MapsAre x l i j k beam u v := by
  obtain ⟨a1, b1, c1, e1, p1, q1, r1⟩ := mapM3_ok h1
  obtain ⟨a2, b2, c2, e2, p2, q2, r2⟩ := mapM3_ok h2
  obtain ⟨a3, b3, c3, e3, p3, q3, r3⟩ := mapM3_ok h3
  obtain ⟨a4, b4, c4, e4, p4, q4, r4⟩ := mapM3_ok h4
  refine ⟨by rw [e4]; rfl, by rw [e1]; rfl, by rw [e2]; rfl, by rw [e3]; rfl, ?_⟩
  rw [e1, e2, e3, e4]
  have key : ∀ (n : ℕ) (a b c : List ℝ) (d : ℝ), (do (← hduAt l n).col beam : Py (List ℝ)) = .ok a →
      (do (← hduAt l n).col u : Py (List ℝ)) = .ok b → (do (← hduAt l n).col v : Py (List ℝ)) = .ok c →
      (do (← (← hduAt l n).key "DZ").quantity : Py ℝ) = .ok d →
      ∃ h, l[n]? = some h ∧ Spec.HasKey h "DZ" (.num d) ∧ Spec.HasCol h beam a ∧ Spec.HasCol h u b ∧
        Spec.HasCol h v c := by
    intro n a b c d ha hb hc hd
    obtain ⟨h, e, hk⟩ := dzAt_ok hd
    obtain ⟨h1, e1, k1⟩ := colAt_ok ha
    obtain ⟨h2, e2, k2⟩ := colAt_ok hb
    obtain ⟨h3, e3, k3⟩ := colAt_ok hc
    rw [e] at e1 e2 e3
    cases e1; cases e2; cases e3
    exact ⟨h, e, hk, k1, k2, k3⟩
  rintro m n (⟨rfl, rfl⟩ | ⟨rfl, rfl⟩ | ⟨rfl, rfl⟩)
  · exact key _ _ _ _ _ p1 p2 p3 p4
  · exact key _ _ _ _ _ q1 q2 q3 q4
  · exact key _ _ _ _ _ r1 r2 r3 r4

theorem pyBind_ok {α β : Type} {x : Py α} {f : α → Py β} {b : β} :
    (x >>= f) = .ok b ↔ ∃ a, x = .ok a ∧ f a = .ok b := by
  cases x with
  | error e => simp [bind, Except.bind]
  | ok a => simp [bind, Except.bind]

theorem Py.ok_bind {α β : Type} (a : α) (f : α → Py β) : ((Except.ok a : Py α) >>= f) = f a := rfl

theorem no_bind {α β : Type} {x : Py α} {f : α → Py β} (hx : x ≠ .error .valueError)
    (hf : ∀ a, f a ≠ .error .valueError) : (x >>= f) ≠ .error .valueError := by
  cases x with
  | error e => intro h; cases h; exact hx rfl
  | ok a => exact hf a

theorem no_key (h : Hdu) (k : String) : h.key k ≠ .error .valueError := by
  intro e; unfold Hdu.key at e; split at e <;> cases e

theorem no_col (h : Hdu) (k : String) : h.col k ≠ .error .valueError := by
  intro e; unfold Hdu.col at e; split at e <;> cases e

theorem no_hduAt (l : List Hdu) (i : ℕ) : hduAt l i ≠ .error .valueError := by
  intro e; unfold hduAt at e; split at e <;> cases e

theorem no_quantity (v : HVal) : v.quantity ≠ .error .valueError := by
  intro e; cases v <;> cases e

theorem no_mapM {α : Type} {f : ℕ → Py α} (l : List ℕ) (hf : ∀ i, f i ≠ .error .valueError) :
    l.mapM f ≠ .error .valueError := by
  induction l with
  | nil => intro e; cases e
  | cons i l ih =>
    rw [List.mapM_cons]
    exact no_bind (hf i) fun _ => no_bind ih fun _ e => by cases e

/-- The keywords that have to be in the primary header. -/
def Spec.keywords : List String := ["FREQ", "WAVEL", "MEANEL", "OBJECT", "DATE_OBS"]

/-- **C49**. For a file `dir/name.fits` that can be opened and has a primary HDU: `extract_data_pyoof`
raises a `ValueError` exactly when one of the five keywords is missing. -/
theorem C49_pyoof_error (fitsOpen : Str → Py (List Hdu)) (p dir name : Str)
    (hp : Spec.FitsPath p dir name) (h0 : Hdu) (rest : List Hdu) (ho : fitsOpen p = .ok (h0 :: rest)) :
    extractPyoof fitsOpen p = .error .valueError ↔
      ∃ k ∈ Spec.keywords, ∀ v, ¬ Spec.HasKey h0 k v := by
  have hs : ¬ (splitext p).2 ≠ ".fits".toList := not_not.2 ((splitext_fits p).2 ⟨dir, name, hp⟩)
  have hall : (["FREQ", "WAVEL", "MEANEL", "OBJECT", "DATE_OBS"].all fun k =>
      (h0.header.lookup k.toList).isSome) = true ↔ ¬ ∃ k ∈ Spec.keywords, ∀ v, ¬ Spec.HasKey h0 k v := by
    rw [List.all_eq_true]
    push Not
    constructor
    · intro h k hk
      exact Option.isSome_iff_exists.1 (h k hk)
    · intro h k hk
      exact Option.isSome_iff_exists.2 (h k hk)
  unfold extractPyoof
  rw [if_neg hs]
  rw [ho]
  simp only [Py.ok_bind, show hduAt (h0 :: rest) 0 = .ok h0 from rfl]
  by_cases hk : (["FREQ", "WAVEL", "MEANEL", "OBJECT", "DATE_OBS"].all fun k =>
      (h0.header.lookup k.toList).isSome) = true
  · have hn := hall.1 hk
    refine ⟨fun h => ?_, fun h => absurd h hn⟩
    refine absurd h ?_
    simp only [hk, Bool.not_true, Bool.false_eq_true, if_false]
    refine no_bind (no_key _ _) fun _ => no_bind (no_quantity _) fun _ => ?_
    refine no_bind (no_key _ _) fun _ => no_bind (no_quantity _) fun _ => ?_
    refine no_bind (no_key _ _) fun _ => no_bind (no_quantity _) fun _ => ?_
    refine no_bind (no_key _ _) fun _ => no_bind (no_key _ _) fun _ => ?_
    refine no_bind (no_mapM _ fun i => no_bind (no_hduAt _ _) fun _ => no_col _ _) fun _ => ?_
    refine no_bind (no_mapM _ fun i => no_bind (no_hduAt _ _) fun _ => no_col _ _) fun _ => ?_
    refine no_bind (no_mapM _ fun i => no_bind (no_hduAt _ _) fun _ => no_col _ _) fun _ => ?_
    refine no_bind (no_mapM _ fun i => no_bind (no_hduAt _ _) fun _ =>
      no_bind (no_key _ _) fun _ => no_quantity _) fun _ => ?_
    exact fun e => by cases e
  · have hn := fun h => hk (hall.2 h)
    refine ⟨fun _ => not_not.1 hn, fun _ => ?_⟩
    rw [Bool.not_eq_true] at hk
    simp only [hk, Bool.not_false, if_true]
    rfl

/-- **C49**. What `extract_data_pyoof` returns: the values of the keywords and the maps of HDU 1, 2
and 3, in this order, for the defocus, the beam and both axes alike. -/
theorem C49_pyoof (fitsOpen : Str → Py (List Hdu)) (p : Str) (x : Extract)
    (h : extractPyoof fitsOpen p = .ok x) :
    ∃ h0 rest wavel, fitsOpen p = .ok (h0 :: rest) ∧ Spec.HasKey h0 "FREQ" (.num x.freq) ∧
      Spec.HasKey h0 "WAVEL" (.num wavel) ∧ x.wavel = .fin wavel ∧
      Spec.HasKey h0 "MEANEL" (.num x.meanel) ∧ Spec.HasKey h0 "OBJECT" x.obsObject ∧
      Spec.HasKey h0 "DATE_OBS" x.obsDate ∧ Spec.MapsAre x (h0 :: rest) 1 2 3 "BEAM" "U" "V" := by
  unfold extractPyoof at h
  by_cases hs : (splitext p).2 ≠ ".fits".toList
  · rw [if_pos hs] at h; cases h
  rw [if_neg hs] at h
  simp only [pyBind_ok] at h
  obtain ⟨l, hl, h0, hh0, h⟩ := h
  split at h
  · cases h
  · simp only [pyBind_ok] at h
    obtain ⟨f, h1, f', h1', w, h2, w', h2', m, h3, m', h3', o, h4, d, h5, b, hb, u, hu, v, hv, z, hz, h⟩ := h
    cases h
    obtain ⟨rest, rfl⟩ : ∃ rest, l = h0 :: rest := by
      have := hduAt_ok hh0
      cases l with
      | nil => cases this
      | cons a l => cases this; exact ⟨l, rfl⟩
    refine ⟨h0, rest, w', hl, quantity_ok h1' ▸ key_ok h1, quantity_ok h2' ▸ key_ok h2, rfl,
      quantity_ok h3' ▸ key_ok h3, key_ok h4, key_ok h5, ?_⟩
    exact mapsAre_of hb hu hv hz

/-- **C49**. What `extract_data_effelsberg` returns: the maps of HDU 3, 1 and 2, in this order, for
the defocus, the beam and both axes alike; frequency times wavelength is the speed of light. -/
theorem C49_effelsberg (fitsOpen : Str → Py (List Hdu)) (p : Str) (x : Extract)
    (h : extractEffelsberg fitsOpen p = .ok x) :
    ∃ h0 rest, fitsOpen p = .ok (h0 :: rest) ∧ Spec.HasKey h0 "FREQ" (.num x.freq) ∧
      (x.freq ≠ 0 → ∃ w, x.wavel = .fin w ∧ w * x.freq = 299792458) ∧
      Spec.HasKey h0 "MEANEL" (.num x.meanel) ∧ Spec.HasKey h0 "OBJECT" x.obsObject ∧
      Spec.HasKey h0 "DATE_OBS" x.obsDate ∧ Spec.MapsAre x (h0 :: rest) 3 1 2 "fnu" "DX" "DY" := by
  unfold extractEffelsberg at h
  by_cases hs : (splitext p).2 ≠ ".fits".toList
  · rw [if_pos hs] at h; cases h
  rw [if_neg hs] at h
  simp only [pyBind_ok] at h
  obtain ⟨l, hl, h0, hh0, f, h1, f', h1', m, h3, m', h3', o, h4, d, h5, z, hz, b, hb, u, hu, v, hv, h⟩ := h
  cases h
  obtain ⟨rest, rfl⟩ : ∃ rest, l = h0 :: rest := by
    have := hduAt_ok hh0
    cases l with
    | nil => cases this
    | cons a l => cases this; exact ⟨l, rfl⟩
  refine ⟨h0, rest, hl, quantity_ok h1' ▸ key_ok h1, fun hf => ?_,
    quantity_ok h3' ▸ key_ok h3, key_ok h4, key_ok h5, mapsAre_of hb hu hv hz⟩
  refine ⟨lightSpeed / f', ?_, ?_⟩
  · show Fl.div (.fin lightSpeed) (.fin f') = _
    simp only [Fl.div]
    exact if_neg hf
  · show lightSpeed / f' * f' = _
    rw [div_mul_cancel₀ _ hf]
    rfl

/-- **C49**. When everything is there, `extract_data_pyoof` returns. -/
theorem C49_pyoof_returns (fitsOpen : Str → Py (List Hdu)) (p dir name : Str)
    (hp : Spec.FitsPath p dir name) (h0 h1 h2 h3 : Hdu) (rest : List Hdu)
    (ho : fitsOpen p = .ok (h0 :: h1 :: h2 :: h3 :: rest))
    (hnum : ∀ k ∈ ["FREQ", "WAVEL", "MEANEL"], ∃ r, Spec.HasKey h0 k (.num r))
    (hstr : ∀ k ∈ ["OBJECT", "DATE_OBS"], ∃ v, Spec.HasKey h0 k v)
    (hmaps : ∀ h ∈ [h1, h2, h3], (∃ r, Spec.HasKey h "DZ" (.num r)) ∧
      ∀ k ∈ ["BEAM", "U", "V"], ∃ c, Spec.HasCol h k c) :
    ∃ x, extractPyoof fitsOpen p = .ok x ∧ x.name = name := by
  have hs : ¬ (splitext p).2 ≠ ".fits".toList := not_not.2 ((splitext_fits p).2 ⟨dir, name, hp⟩)
  suffices H : ∃ x, extractPyoof fitsOpen p = .ok x by
    obtain ⟨x, hx⟩ := H
    obtain ⟨d, -, -, hu⟩ := C48_name fitsOpen p x (.inl hx)
    exact ⟨x, hx, (hu dir name hp).2.symm⟩
  obtain ⟨f, hf⟩ := hnum "FREQ" (by simp)
  obtain ⟨w, hw⟩ := hnum "WAVEL" (by simp)
  obtain ⟨m, hm⟩ := hnum "MEANEL" (by simp)
  obtain ⟨o, hob⟩ := hstr "OBJECT" (by simp)
  obtain ⟨d, hd⟩ := hstr "DATE_OBS" (by simp)
  have hkey : ∀ {h : Hdu} {k : String} {v : HVal}, Spec.HasKey h k v → h.key k = .ok v := by
    intro h k v e; unfold Hdu.key; rw [show h.header.lookup k.toList = some v from e]
  have hcol : ∀ {h : Hdu} {k : String} {v : List ℝ}, Spec.HasCol h k v → h.col k = .ok v := by
    intro h k v e; unfold Hdu.col; rw [show h.data.lookup k.toList = some v from e]
  obtain ⟨⟨z1, hz1⟩, c1⟩ := hmaps h1 (by simp)
  obtain ⟨⟨z2, hz2⟩, c2⟩ := hmaps h2 (by simp)
  obtain ⟨⟨z3, hz3⟩, c3⟩ := hmaps h3 (by simp)
  obtain ⟨b1, hb1⟩ := c1 "BEAM" (by simp)
  obtain ⟨b2, hb2⟩ := c2 "BEAM" (by simp)
  obtain ⟨b3, hb3⟩ := c3 "BEAM" (by simp)
  obtain ⟨u1, hu1⟩ := c1 "U" (by simp)
  obtain ⟨u2, hu2⟩ := c2 "U" (by simp)
  obtain ⟨u3, hu3⟩ := c3 "U" (by simp)
  obtain ⟨v1, hv1⟩ := c1 "V" (by simp)
  obtain ⟨v2, hv2⟩ := c2 "V" (by simp)
  obtain ⟨v3, hv3⟩ := c3 "V" (by simp)
  have hk : (["FREQ", "WAVEL", "MEANEL", "OBJECT", "DATE_OBS"].all fun k =>
      (h0.header.lookup k.toList).isSome) = true := by
    simp only [List.all_cons, List.all_nil, Bool.and_true, Bool.and_eq_true]
    exact ⟨Option.isSome_iff_exists.2 ⟨_, hf⟩, Option.isSome_iff_exists.2 ⟨_, hw⟩,
      Option.isSome_iff_exists.2 ⟨_, hm⟩, Option.isSome_iff_exists.2 ⟨_, hob⟩,
      Option.isSome_iff_exists.2 ⟨_, hd⟩⟩
  unfold extractPyoof
  rw [if_neg hs]
  simp only [ho, bind, Except.bind, pure, Except.pure, hduAt, List.getElem?_cons_zero, hk,
    Bool.not_true, Bool.false_eq_true, if_false, hkey hf, hkey hw, hkey hm, hkey hob, hkey hd,
    HVal.quantity, List.mapM_cons, List.mapM_nil, List.getElem?_cons_succ, hcol hb1, hcol hb2, hcol hb3,
    hcol hu1, hcol hu2, hcol hu3, hcol hv1, hcol hv2, hcol hv3, hkey hz1, hkey hz2, hkey hz3]
  exact ⟨_, rfl⟩

/-- A file with different maps in the three tables. -/
def sampleFits : List Hdu :=
  let tab (z : ℝ) := ⟨[("DZ".toList, .num z)],
    [("U".toList, [z, 1]), ("V".toList, [z, 2]), ("BEAM".toList, [z, 3]), ("DX".toList, [z, 4]),
      ("DY".toList, [z, 5]), ("fnu".toList, [z, 6])]⟩
  [⟨[("FREQ".toList, .num 10), ("WAVEL".toList, .num 3), ("MEANEL".toList, .num 32),
    ("OBJECT".toList, .str "3C84".toList), ("DATE_OBS".toList, .str "now".toList)], []⟩,
    tab (-1), tab 0, tab 1]

example : ∃ x, extractPyoof (fun _ => .ok sampleFits) "a/b.fits".toList = .ok x ∧
    x.name = "b".toList ∧ x.pthto = "a".toList ∧ x.dz = [-1, 0, 1] ∧ x.freq = 10 := ⟨_, rfl, rfl, rfl, rfl, rfl⟩

example : ∃ x, extractEffelsberg (fun _ => .ok sampleFits) "a//b.fits".toList = .ok x ∧
    x.name = "b".toList ∧ x.pthto = "a".toList ∧ x.dz = [1, -1, 0] := ⟨_, rfl, rfl, rfl, rfl⟩

example : extractPyoof (fun _ => .ok [⟨[("FREQ".toList, .num 10)], []⟩]) "b.fits".toList =
    .error .valueError := rfl

end Verif.Props
