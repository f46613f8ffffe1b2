import Verif.Props.ActFit
import Verif.Props.Unique

/-!
# The fits recover the coefficients (C65)
-/

namespace Verif.Props

open Verif Verif.Np Verif.Aperture Verif.Actuator

theorem phase_phi {K L : List ℝ} {pr : ℝ} {tilt : Bool} {N n : ℕ} (hn : 1 ≤ n)
    (hK : K.length = tri (n + 1)) (hL : L.length = tri (n + 1)) {p q : PhaseMap N}
    (hp : phase K pr false tilt N = .ok p) (hq : phase L pr false tilt N = .ok q)
    (h : p.phi = q.phi) : phase K pr false tilt N = phase L pr false tilt N := by
  have h3 : 3 ≤ tri (n + 1) := by
    have := tri_mono (show 2 ≤ n + 1 by omega)
    simpa [tri] using this
  obtain ⟨K', -, -, e⟩ := phase_ok K pr false tilt N n hK (fun _ => by omega)
  obtain ⟨L', -, -, e'⟩ := phase_ok L pr false tilt N n hL (fun _ => by omega)
  rw [e] at hp
  rw [e'] at hq
  rw [e, e']
  cases hp
  cases hq
  simp only at h
  rw [h]

/-- **C65.**  The maps determine the rows from the fourth coefficient on, or from the second on with
tilt, when there are at least `2 n + 2` points across. -/
theorem C65_determined (a : Act) (ho : 1 ≤ a.order) (hpr : 0 < a.pr)
    (hN : 2 * a.order + 2 ≤ a.resolution) (tilt : Bool) (K L : List (List ℝ))
    (hK : ∀ r ∈ K, r.length = (a.order + 1) * (a.order + 2) / 2)
    (hL : ∀ r ∈ L, r.length = (a.order + 1) * (a.order + 2) / 2)
    (maps : List (Fin a.resolution × Fin a.resolution → ℝ))
    (h : Spec.Maps a tilt K maps) (h' : Spec.Maps a tilt L maps) :
    List.Forall₂ (fun r r' => r.drop (if tilt then 1 else 3) = r'.drop (if tilt then 1 else 3)) K L := by
  rw [List.forall₂_iff_get]
  have e1 := h.length_eq
  have e2 := h'.length_eq
  refine ⟨by omega, fun i hi hi' => ?_⟩
  obtain ⟨p, hp, hpm⟩ := (List.forall₂_iff_get.1 h).2 i hi (by omega)
  obtain ⟨q, hq, hqm⟩ := (List.forall₂_iff_get.1 h').2 i hi' (by omega)
  have hlK := hK _ (List.get_mem K ⟨i, hi⟩)
  have hlL := hL _ (List.get_mem L ⟨i, hi'⟩)
  have heq := phase_phi ho hlK hlL hp hq (hpm.trans hqm.symm)
  have := C68_phase _ _ a.pr hpr false tilt a.resolution a.order ho hN hlK (hlL.trans hlK.symm) heq
  refine List.ext_getElem? fun m => ?_
  rw [List.getElem?_drop, List.getElem?_drop]
  cases tilt with
  | true => exact this _ (by simp) (by simp)
  | false => exact this _ (by simp) (by simp; omega)

/-- **C65.**  With `fem`, an exact optimiser and at least `2 n + 2` points across, `fit_zpoly`
recovers the coefficients of the maps; those of piston and tilt come out as zero. -/
theorem C65_recovered (a : Act) (ho : 1 ≤ a.order) (hpr : 0 < a.pr)
    (hN : 2 * a.order + 2 ≤ a.resolution)
    (s : Act.Solver (Fin a.resolution × Fin a.resolution → ℝ)) (hs : Spec.Exact Spec.cost2 s)
    (K : List (List ℝ)) (hK : ∀ r ∈ K, r.length = (a.order + 1) * (a.order + 2) / 2)
    (maps : List (Fin a.resolution × Fin a.resolution → ℝ)) (hm : Spec.Maps a false K maps) :
    a.fitZpoly s maps maps.length true = .ok (K.map fun r => [0, 0, 0] ++ r.drop 3) := by
  obtain ⟨rows, h1, h2⟩ := C65_reproduced a ho true s hs K hK maps hm
  have hr := (C65_rows a s maps maps.length true rows h1).2
  have hd := C65_determined a ho hpr hN false rows K (fun r h => (hr r h).1) hK maps h2 hm
  rw [h1]
  congr 1
  refine List.ext_getElem (by rw [List.length_map]; exact hd.length_eq) fun i hi hi' => ?_
  have hiK : i < K.length := by simpa using hi'
  have hdi := (List.forall₂_iff_get.1 hd).2 i hi hiK
  simp only [Bool.false_eq_true, if_false, List.get_eq_getElem] at hdi
  rw [List.getElem_map, ← hdi]
  have hz := (hr _ (List.getElem_mem hi)).2 rfl
  generalize rows[i] = r at hz
  have z0 := hz 0 (by norm_num)
  have z1 := hz 1 (by norm_num)
  have z2 := hz 2 (by norm_num)
  rcases r with _ | ⟨x, _ | ⟨y, _ | ⟨z, r⟩⟩⟩
  · simp at z0
  · simp at z1
  · simp at z2
  · simp at z0 z1 z2
    simp [z0, z1, z2]

/-- **C65.**  Without `fem` all but the first are recovered. -/
theorem C65_recovered_tilt (a : Act) (ho : 1 ≤ a.order) (hpr : 0 < a.pr)
    (hN : 2 * a.order + 2 ≤ a.resolution)
    (s : Act.Solver (Fin a.resolution × Fin a.resolution → ℝ)) (hs : Spec.Exact Spec.cost2 s)
    (K : List (List ℝ)) (hK : ∀ r ∈ K, r.length = (a.order + 1) * (a.order + 2) / 2)
    (maps : List (Fin a.resolution × Fin a.resolution → ℝ)) (hm : Spec.Maps a true K maps) :
    ∃ rows, a.fitZpoly s maps maps.length false = .ok rows ∧
      List.Forall₂ (fun r r' => r.drop 1 = r'.drop 1) rows K := by
  obtain ⟨rows, h1, h2⟩ := C65_reproduced a ho false s hs K hK maps hm
  have hr := (C65_rows a s maps maps.length false rows h1).2
  exact ⟨rows, h1, C65_determined a ho hpr hN true rows K (fun r h => (hr r h).1) hK maps h2 hm⟩

/-- **C65.**  The first one is not determined by anything: the residual does not depend on it. -/
theorem C65_piston_free (a : Act) (c d : ℝ) (K : List ℝ)
    (hK : (c :: K).length = (a.order + 1) * (a.order + 2) / 2)
    (data : Fin a.resolution × Fin a.resolution → ℝ) :
    a.residualPhase false (c :: K) data = a.residualPhase false (d :: K) data := by
  have hm : maskCoeff (c :: K) false true = maskCoeff (d :: K) false true := rfl
  have e : phase (c :: K) a.pr false true a.resolution = phase (d :: K) a.pr false true a.resolution := by
    unfold phase
    rw [hm]
  simp only [Act.residualPhase, Bool.false_eq_true, if_false, e]

/-- **C65.**  `fit_all` recovers the gravitational coefficients from the maps that
`generate_phase_pr` (without `eac`) makes from them, when there are three different elevations and
at least `2 n + 2` points across, and both optimisations find the minimum.  Those of piston and tilt
come out as zero. -/
theorem C65_fit_all (a : Act) (hpr : 0 < a.pr) (hN : 2 * a.order + 2 ≤ a.resolution)
    (s1 : Act.Solver (Fin a.resolution × Fin a.resolution → ℝ)) (hs1 : Spec.Exact Spec.cost2 s1)
    (s2 : Act.Solver (List ℝ)) (hs2 : Spec.Exact Spec.costL s2) (g : List (List ℝ))
    (ho : 1 ≤ a.order) (hg : g.length = (a.order + 1) * (a.order + 2) / 2)
    (hrow : ∀ r ∈ g, r.length = 3) (alphas : List Act.Angle) (h3 : Spec.ThreeAngles alphas)
    (maps : List (Fin a.resolution × Fin a.resolution → ℝ))
    (hgen : a.generatePhasePr g alphas false = .ok (maps.map fun m q => .fin (m q))) :
    ∃ K, a.fitAll s1 s2 maps alphas = .ok ([[0, 0, 0], [0, 0, 0], [0, 0, 0]] ++ g.drop 3, K) ∧
      Spec.Maps a false K maps := by
  have hen : Spec.Enough a g := ⟨ho, hg.ge, fun r hr => (hrow r hr).ge⟩
  obtain ⟨L, e1, e2, e3⟩ := generate_eq hen false alphas
  rw [hgen, Except.ok.injEq] at e1
  have hlen : maps.length = alphas.length := by rw [← e2, ← e1, List.length_map]
  have hmap : ∀ i (hi : i < alphas.length) (hi' : i < maps.length),
      Spec.IsMap a g alphas[i] maps[i] := by
    intro i hi hi'
    obtain ⟨phi, f1, f2⟩ := e3 i (by omega) hi
    have hid : ∀ (n : ℕ) (x : Fl), (fun x : Fl => x)^[n] x = x := fun n x => by
      induction n with
      | zero => rfl
      | succ n ih => rw [Function.iterate_succ_apply, ih]
    have : (fun q => Fl.fin (maps[i] q)) = fun q => Fl.fin (phi q) := by
      simp only [Bool.false_eq_true, if_false, hid] at f2
      rw [← f2]
      simp only [← e1, List.getElem_map]
    have : maps[i] = phi := funext fun q => Fl.fin.inj (congrFun this q)
    rw [this]; exact f1
  choose! Kf hK1 hK2 hK3 using hmap
  set K : List (List ℝ) := (List.range maps.length).map Kf with hKdef
  have hKlen : K.length = maps.length := by rw [hKdef, List.length_map, List.length_range]
  have hKget : ∀ i (hi : i < K.length), K[i] = Kf i := by
    intro i hi
    simp only [hKdef, List.getElem_map, List.getElem_range]
  have hKl : ∀ r ∈ K, r.length = (a.order + 1) * (a.order + 2) / 2 := by
    intro r hr
    obtain ⟨i, hi, rfl⟩ := List.getElem_of_mem hr
    rw [hKget i hi]
    exact hK1 i (by omega) (by omega)
  have hm : Spec.Maps a false K maps := by
    refine List.forall₂_iff_get.2 ⟨hKlen, fun i hi hi' => ?_⟩
    simp only [List.get_eq_getElem]
    rw [hKget i hi]
    exact hK3 i (by omega) hi'
  have hrec := C65_recovered a ho hpr hN s1 hs1 K hKl maps hm
  set K' := K.map fun r => [0, 0, 0] ++ r.drop 3 with hK'def
  have h3g : 3 ≤ g.length := by rw [hg]; exact three_le ho
  set g' := [[0, 0, 0], [0, 0, 0], [0, 0, 0]] ++ g.drop 3 with hg'def
  have hzero : ∀ al : Act.Angle, Act.gravDeformation [0, 0, 0] al = .ok 0 := by
    intro al
    rw [grav_ok (by simp)]; simp
  have hgrav := C65_gravity a s2 hs2 alphas h3 g' (by simp [hg'def]; omega) (by
      intro r hr
      rcases List.mem_append.1 hr with hr | hr
      · simp only [List.mem_cons, List.not_mem_nil, or_false, or_self] at hr
        rw [hr]; rfl
      · exact hrow r (List.mem_of_mem_drop hr)) K' (by
    refine List.forall₂_iff_get.2 ⟨by rw [hK'def, List.length_map]; omega, fun i hi hi' => ?_⟩
    have hiK : i < K.length := by simpa [hK'def] using hi'
    simp only [List.get_eq_getElem, hK'def, List.getElem_map]
    rw [hKget i hiK]
    refine List.Forall₂.cons (hzero _) (.cons (hzero _) (.cons (hzero _) ?_))
    show List.Forall₂ _ (g.drop 3) ((Kf i).drop 3)
    have l1 := hK1 i hi (by omega)
    refine List.forall₂_iff_get.2 ⟨by simp only [List.length_drop]; omega, fun k hk hk' => ?_⟩
    simp only [List.length_drop] at hk'
    simp only [List.get_eq_getElem, List.getElem_drop]
    obtain ⟨row, f1, f2⟩ := hK2 i hi (by omega) (3 + k) (by omega)
    rw [List.getElem?_eq_getElem (by omega), Option.some.injEq] at f1
    rw [f1, f2, getD_lt _ _ (by omega)])
  refine ⟨K', ?_, ?_⟩
  · unfold Act.fitAll
    rw [← hlen, hrec]
    simp only [bind, Except.bind, hgrav, pure, Except.pure]
  · obtain ⟨rows, r1, r2⟩ := C65_reproduced a ho true s1 hs1 K hKl maps hm
    rw [hrec, Except.ok.injEq] at r1
    rw [r1]; exact r2

/-- Six points across, order two. -/
noncomputable def Spec.fineAct : Act :=
  { Spec.smallAct with resolution := 6 }

example : ∃ s1 s2 maps K,
    Spec.fineAct.generatePhasePr Spec.defocus [.bare 0, .bare 1, .bare 2] false =
      .ok (maps.map fun m q => .fin (m q)) ∧
    Spec.fineAct.fitAll s1 s2 maps [.bare 0, .bare 1, .bare 2] = .ok (Spec.defocus, K) := by
  obtain ⟨s1, h1⟩ := exact_exists (ρ := Fin Spec.fineAct.resolution × Fin Spec.fineAct.resolution → ℝ)
    Spec.cost2
  obtain ⟨s2, h2⟩ := exact_exists Spec.costL
  have hrow : ∀ r ∈ Spec.defocus, r.length = 3 := by
    intro r hr
    simp only [Spec.defocus, List.mem_cons, List.not_mem_nil, or_false] at hr
    rcases hr with rfl | rfl | rfl | rfl | rfl | rfl <;> rfl
  have hen : Spec.Enough Spec.fineAct Spec.defocus :=
    ⟨by decide, by decide, fun r hr => (hrow r hr).ge⟩
  obtain ⟨L, e1, e2, e3⟩ := generate_eq hen false [.bare 0, .bare 1, .bare 2]
  have hid : ∀ (n : ℕ) (x : Fl), (fun x : Fl => x)^[n] x = x := fun n x => by
    induction n with
    | zero => rfl
    | succ n ih => rw [Function.iterate_succ_apply, ih]
  have hL : ∃ maps : List (Fin Spec.fineAct.resolution × Fin Spec.fineAct.resolution → ℝ),
      L = maps.map fun m q => .fin (m q) := by
    have h : ∀ n (hn : n < L.length), ∃ phi : Fin Spec.fineAct.resolution × Fin Spec.fineAct.resolution → ℝ,
        L[n] = fun q => .fin (phi q) := by
      intro n hn
      obtain ⟨phi, -, h⟩ := e3 n hn (by omega)
      simp only [Bool.false_eq_true, if_false, hid] at h
      exact ⟨phi, h⟩
    choose phi hphi using h
    refine ⟨List.ofFn fun i : Fin L.length => phi i i.2, List.ext_getElem (by simp) fun n hn hn' => ?_⟩
    simp [hphi]
  obtain ⟨maps, rfl⟩ := hL
  obtain ⟨K, h, -⟩ := C65_fit_all Spec.fineAct (by norm_num [Spec.fineAct, Spec.smallAct, Spec.effelsberg]) (by decide)
    s1 h1 s2 h2 Spec.defocus (by decide) rfl hrow [.bare 0, .bare 1, .bare 2]
    ⟨.bare 0, by simp, .bare 1, by simp, .bare 2, by simp, by simp [Act.Angle.rad],
      by simp only [Act.Angle.rad]; norm_num, by
        simp only [Act.Angle.rad]; linarith [Real.two_le_pi]⟩ maps e1
  exact ⟨s1, s2, maps, K, e1, h⟩

end Verif.Props
