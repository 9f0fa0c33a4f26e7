import Verif.Props.Degree
import Verif.Props.EndToEndWindingExamples

/-!
# C126 on a torus of 64 data points
-/

namespace Dreimac

open Real Finset

noncomputable section

/-- Minimal forms are unique: if a co-closed form `H / m` differs from the cochain `c` by the differential of a function, then it is
the form of every minimiser of the energy. -/
theorem minimal_form {S : Finset ℕ} {δ : ℕ → ℕ → ℝ} {t : ℝ} {c : ℕ → ℕ → ℤ} {f : ℕ → ℝ} (H : ℕ → ℕ → ℤ) (G : ℕ → ℤ) (m : ℤ) (hm : 0 < m)
    (hG : ∀ u ∈ S, ∀ v ∈ S, δ u v < t → m * c u v - (G u - G v) = H u v) (hfar : ∀ u ∈ S, ∀ v ∈ S, ¬ δ u v < t → H u v = 0)
    (h1 : ∀ u ∈ S, ∑ v ∈ S, H u v = 0) (h2 : ∀ v ∈ S, ∑ u ∈ S, H u v = 0)
    (hmin : ∀ g, dataEnergy S δ t c f ≤ dataEnergy S δ t c g) :
    ∀ u ∈ S, ∀ v ∈ S, δ u v < t → (c u v : ℝ) - (f u - f v) = H u v / m := by
  classical
  have hm' : (m : ℝ) ≠ 0 := by exact_mod_cast hm.ne'
  set φ : ℕ → ℝ := fun u => G u / m - f u with hφ
  have hH : ∀ u ∈ S, ∀ v ∈ S, δ u v < t → (c u v : ℝ) - ((G u / m : ℝ) - G v / m) = H u v / m := by
    intro u hu v hv h
    have : (m : ℝ) * c u v - (G u - G v) = H u v := by exact_mod_cast hG u hu v hv h
    rw [← this]
    field_simp
  have hη : ∀ u ∈ S, ∀ v ∈ S, δ u v < t → (c u v : ℝ) - (f u - f v) = H u v / m + (φ u - φ v) := by
    intro u hu v hv h
    rw [← hH u hu v hv h]
    simp only [hφ]
    ring
  have horth : ∑ u ∈ S, ∑ v ∈ S, (H u v : ℝ) * (φ u - φ v) = 0 := by
    have e1 : ∑ u ∈ S, ∑ v ∈ S, (H u v : ℝ) * φ u = 0 := by
      refine sum_eq_zero fun u hu => ?_
      rw [← sum_mul, ← Int.cast_sum, h1 u hu]; simp
    have e2 : ∑ u ∈ S, ∑ v ∈ S, (H u v : ℝ) * φ v = 0 := by
      rw [sum_comm]
      refine sum_eq_zero fun v hv => ?_
      rw [← sum_mul, ← Int.cast_sum, h2 v hv]; simp
    simp only [mul_sub, sum_sub_distrib, e1, e2, sub_self]
  have hE := hmin (fun u => G u / m)
  have hdiff : dataEnergy S δ t c f = dataEnergy S δ t c (fun u => G u / m) +
      (2 / m) * ∑ u ∈ S, ∑ v ∈ S, (H u v : ℝ) * (φ u - φ v) +
      ∑ u ∈ S, ∑ v ∈ S, if δ u v < t then (φ u - φ v) ^ 2 else 0 := by
    unfold dataEnergy
    rw [mul_sum, ← sum_add_distrib, ← sum_add_distrib]
    refine sum_congr rfl fun u hu => ?_
    rw [mul_sum, ← sum_add_distrib, ← sum_add_distrib]
    refine sum_congr rfl fun v hv => ?_
    by_cases h : δ u v < t
    · simp only [if_pos h]
      rw [hη u hu v hv h, hH u hu v hv h]
      field_simp
      ring
    · simp only [if_neg h, hfar u hu v hv h]
      simp
  rw [hdiff, horth] at hE
  have hle : ∑ u ∈ S, ∑ v ∈ S, (if δ u v < t then (φ u - φ v) ^ 2 else 0) ≤ 0 := by linarith
  have hnn : ∀ u v, 0 ≤ (if δ u v < t then (φ u - φ v) ^ 2 else 0) := by
    intro u v; split_ifs <;> positivity
  intro u hu v hv h
  have s1 := single_le_sum (f := fun u => ∑ v ∈ S, (if δ u v < t then (φ u - φ v) ^ 2 else 0))
    (fun u _ => sum_nonneg fun v _ => hnn u v) hu
  have s2 := single_le_sum (f := fun v => (if δ u v < t then (φ u - φ v) ^ 2 else 0)) (fun v _ => hnn u v) hv
  rw [if_pos h] at s2
  have hz : (φ u - φ v) ^ 2 = 0 := le_antisymm (by linarith) (sq_nonneg _)
  rw [hη u hu v hv h, pow_eq_zero_iff two_ne_zero |>.1 hz, add_zero]

/-- The cochain with the value 1 on the listed pairs. -/
def listForm (L : List (ℕ × ℕ)) (u v : ℕ) : ℤ := if (u, v) ∈ L then 1 else if (v, u) ∈ L then -1 else 0

/-- The array with the value 1 for the listed pairs. -/
def listRows (L : List (ℕ × ℕ)) : List ZRow := L.map fun q => ⟨[(q.1 : ℤ), (q.2 : ℤ)], 1⟩

theorem listForm_lists {L : List (ℕ × ℕ)} (hL : ∀ q ∈ L, (q.2, q.1) ∉ L) : ListsCochain (listRows L) (listForm L) where
  antisymm := by
    intro u v
    unfold listForm
    by_cases h1 : (u, v) ∈ L
    · have := hL _ h1
      simp [h1, this]
    · by_cases h2 : (v, u) ∈ L
      · simp [h1, h2]
      · simp [h1, h2]
  rows := by
    intro r hr
    obtain ⟨q, hq, rfl⟩ := List.mem_map.1 hr
    exact ⟨q.1, q.2, rfl, if_pos hq⟩
  unlisted := by
    intro u v h
    unfold listForm
    rw [if_neg, if_neg]
    · intro h'
      exact (h _ (List.mem_map.2 ⟨_, h', rfl⟩)).2 rfl
    · intro h'
      exact (h _ (List.mem_map.2 ⟨_, h', rfl⟩)).1 rfl

/-! ### the torus: 8 × 8 data points `8 a + b`, with the landmarks where `a` and `b` are even -/

def torD (u v : ℕ) : ℕ := max (cyc8 (u / 8) (v / 8)) (cyc8 (u % 8) (v % 8))

def torδ (u v : ℕ) : ℝ := torD u v

def torInput : DataInput := ⟨64, 64, torδ, .float, true⟩

def torIdx : List ℕ := [0, 36, 20, 52, 4, 32, 16, 48, 2, 6, 18, 22, 34, 38, 50, 54]

/-- The edges on which the two classes are 1: from `a = 6` to `a = 0`, and from `b = 6` to `b = 0`. -/
def torL (a : Fin 2) : List (ℕ × ℕ) :=
  (([0, 2, 4, 6] : List ℕ).flatMap fun b => [0, 2, 4, 6].map fun b' => if a = 0 then (48 + b, b') else (8 * b + 6, 8 * b'))

/-- What ripser returns: two classes in dimension 1. -/
def torRipser : RipserResult ℝ :=
  ⟨[[(.fin 0, .pinf)], [(.fin 2, .fin 4), (.fin 2, .fin 4)]], torIdx, [[], [listRows (torL 0), listRows (torL 1)]],
    fun l i => .fin (torδ (torIdx.getD l 0) i)⟩

theorem torInput_describes : DescribesData torInput torδ where
  rows := le_refl _
  metric := by
    refine ⟨fun u _ i _ => Nat.cast_nonneg _, ?_, ?_⟩
    · intro u hu v hv
      have key : ∀ u < 8, ∀ v < 8, cyc8 u v = cyc8 v u := by decide
      have hu : u < 64 := hu
      have hv : v < 64 := hv
      unfold torδ torD
      rw [key (u / 8) (by omega) (v / 8) (by omega), key (u % 8) (by omega) (v % 8) (by omega)]
    · intro u hu v hv i hi
      have key : ∀ u < 8, ∀ v < 8, ∀ i < 8, cyc8 u v ≤ cyc8 u i + cyc8 v i := by decide
      have hu : u < 64 := hu
      have hv : v < 64 := hv
      have hi : i < 64 := hi
      have k1 := key (u / 8) (by omega) (v / 8) (by omega) (i / 8) (by omega)
      have k2 := key (u % 8) (by omega) (v % 8) (by omega) (i % 8) (by omega)
      have : torD u v ≤ torD u i + torD v i := by unfold torD; omega
      unfold torδ
      exact_mod_cast this
  entries := fun _ _ _ _ _ => rfl

theorem torδ_lt {u v n : ℕ} : torδ u v < n ↔ torD u v < n := by unfold torδ; exact Nat.cast_lt

theorem torξ_lists (a : Fin 2) : ListsCochain (listRows (torL a)) (listForm (torL a)) :=
  listForm_lists ((by decide +kernel : ∀ a, ∀ q ∈ torL a, (q.2, q.1) ∉ torL a) a)

theorem torξ_cocycle (a : Fin 2) : ∀ u ∈ torIdx, ∀ v ∈ torIdx, ∀ w ∈ torIdx, torδ u v < 4 → torδ v w < 4 → torδ u w < 4 →
    listForm (torL a) u v + listForm (torL a) v w = listForm (torL a) u w := by
  intro u hu v hv w hw h1 h2 h3
  have key : ∀ a, ∀ u ∈ torIdx, ∀ v ∈ torIdx, ∀ w ∈ torIdx, torD u v < 4 → torD v w < 4 → torD u w < 4 →
    listForm (torL a) u v + listForm (torL a) v w = listForm (torL a) u w := by decide +kernel
  have e : (4 : ℝ) = ((4 : ℕ) : ℝ) := by norm_num
  rw [e] at h1 h2 h3
  exact key a u hu v hv w hw (torδ_lt.1 h1) (torδ_lt.1 h2) (torδ_lt.1 h3)

theorem torRipser_spec : RipserSpec id 64 16 torδ 3 1 torRipser where
  count := rfl
  nodup := (by decide : torIdx.Nodup)
  range := (by decide : ∀ v ∈ torIdx, v < 64)
  dists := by
    intro l h i _
    show Fl.fin (torδ (torRipser.idxPerm.getD l 0) i) = _
    rw [getD_of_lt h]
  dims := ⟨rfl, rfl⟩
  classes := by
    intro q dgm coc hq h1 h2
    have : q < 2 := (List.getElem?_eq_some_iff.1 h1).1
    obtain rfl : q = 1 := by omega
    simp only [torRipser] at h1 h2
    simp at h1 h2
    subst h1 h2
    rfl
  intervals := by
    intro q dgm hq h1 pt hpt
    have : q < 2 := (List.getElem?_eq_some_iff.1 h1).1
    obtain rfl : q = 1 := by omega
    simp only [torRipser] at h1
    simp at h1
    subst h1
    simp at hpt
    subst hpt
    exact ⟨2, rfl, Or.inl ⟨4, rfl, by norm_num⟩⟩
  simplices := by
    intro q coc h1 c hc
    have : q < 2 := (List.getElem?_eq_some_iff.1 h1).1
    have hq : q = 0 ∨ q = 1 := by omega
    rcases hq with rfl | rfl
    · simp only [torRipser] at h1
      simp at h1
      subst h1
      simp at hc
    · simp only [torRipser] at h1
      simp at h1
      subst h1
      have hc' : ∃ a : Fin 2, c = listRows (torL a) := by
        simp only [List.mem_cons, List.not_mem_nil, or_false] at hc
        rcases hc with rfl | rfl
        · exact ⟨0, rfl⟩
        · exact ⟨1, rfl⟩
      obtain ⟨a, rfl⟩ := hc'
      have key : ∀ a : Fin 2, (∀ r ∈ listRows (torL a), r.verts.length = 1 + 1 ∧ r.verts.Nodup ∧
          (∀ v ∈ r.verts, ∃ u ∈ torIdx, v = (u : ℤ)) ∧ 0 ≤ r.val ∧ r.val < 3) ∧
          (listRows (torL a)).Pairwise fun r r' => ¬ r.verts.Perm r'.verts := by decide +kernel
      exact key a
  cocycles := by
    intro dgm coc h1 h2 j pt c h3 h4
    simp only [torRipser] at h1 h2
    simp at h1 h2
    subst h1 h2
    have : j < 2 := (List.getElem?_eq_some_iff.1 h3).1
    have hj : ∃ a : Fin 2, pt = (.fin 2, .fin 4) ∧ c = listRows (torL a) := by
      have hj : j = 0 ∨ j = 1 := by omega
      rcases hj with rfl | rfl
      · simp at h3 h4
        exact ⟨0, h3.symm, h4.symm⟩
      · simp at h3 h4
        exact ⟨1, h3.symm, h4.symm⟩
    obtain ⟨a, rfl, rfl⟩ := hj
    refine ⟨listForm (torL a), torξ_lists a, ?_⟩
    intro t ht u hu v hv w hw e1 e2 e3
    have ht' : t ≤ 4 := by
      rcases ht with ⟨d, hd, hd'⟩ | hd
      · simp only [Fl.fin.injEq] at hd; rw [hd]; exact belowDeath_id.1 hd'
      · simp at hd
    rw [torξ_cocycle a u hu v hv w hw (e1.trans_le ht') (e2.trans_le ht') (e3.trans_le ht'), sub_self]
    exact dvd_zero _

/-- The landmarks. -/
abbrev torS : Finset ℕ := torIdx.toFinset

theorem torξ_lift (a : Fin 2) : IsIntegerLift 3 torS torδ 3 (listForm (torL a)) (listForm (torL a)) where
  congr := fun u _ v _ => by simp
  antisymm := fun u _ v _ => (torξ_lists a).antisymm u v
  cocycle := fun u hu v hv w hw h1 h2 h3 => torξ_cocycle a u (List.mem_toFinset.1 hu) v (List.mem_toFinset.1 hv) w
    (List.mem_toFinset.1 hw) (by linarith) (by linarith) (by linarith)

/-- Four times the minimal form of a class: `±1` on the edges that go around. -/
def torH (a : Fin 2) (u v : ℕ) : ℤ :=
  if torD u v < 3 then
    let s := if a = 0 then (v / 8 + 8 - u / 8) % 8 else (v % 8 + 8 - u % 8) % 8
    if s = 2 then 1 else if s = 6 then -1 else 0
  else 0

/-- Four times a potential of the difference. -/
def torG (a : Fin 2) (u : ℕ) : ℤ := if a = 0 then ((u / 16 : ℕ) : ℤ) else ((u % 8 / 2 : ℕ) : ℤ)

theorem tor_lt3 {u v : ℕ} : torδ u v < 3 ↔ torD u v < 3 := by
  rw [show (3 : ℝ) = ((3 : ℕ) : ℝ) by norm_num]; exact torδ_lt

theorem tor_form {a : Fin 2} {c : ℕ → ℕ → ℤ} (hc : ∀ u ∈ torS, ∀ v ∈ torS, c u v = listForm (torL a) u v) {f : ℕ → ℝ}
    (hf : ∀ g, dataEnergy torS torδ 3 c f ≤ dataEnergy torS torδ 3 c g) :
    ∀ u ∈ torS, ∀ v ∈ torS, torδ u v < 3 → (c u v : ℝ) - (f u - f v) = torH a u v / (4 : ℤ) := by
  refine minimal_form (torH a) (torG a) 4 (by norm_num) ?_ ?_ ?_ ?_ hf
  · intro u hu v hv h
    have key : ∀ a, ∀ u ∈ torS, ∀ v ∈ torS, torD u v < 3 → 4 * listForm (torL a) u v - (torG a u - torG a v) = torH a u v := by
      decide +kernel
    rw [hc u hu v hv]
    exact key a u hu v hv (tor_lt3.1 h)
  · intro u hu v hv h
    unfold torH
    rw [if_neg fun h' => h (tor_lt3.2 h')]
  · exact (by decide +kernel : ∀ a, ∀ u ∈ torS, ∑ v ∈ torS, torH a u v = 0) a
  · exact (by decide +kernel : ∀ a, ∀ v ∈ torS, ∑ u ∈ torS, torH a u v = 0) a

theorem tor_formBound {a : Fin 2} {c : ℕ → ℕ → ℤ} (hc : ∀ u ∈ torS, ∀ v ∈ torS, c u v = listForm (torL a) u v) {f : ℕ → ℝ}
    (hf : ∀ g, dataEnergy torS torδ 3 c f ≤ dataEnergy torS torδ 3 c g) : FormBound torS torδ 3 c f (1 / 4) := by
  intro u hu v hv h
  rw [tor_form hc hf u hu v hv h]
  have key : ∀ a, ∀ u ∈ torS, ∀ v ∈ torS, |torH a u v| ≤ 1 := by decide +kernel
  have : |(torH a u v : ℝ)| ≤ 1 := by exact_mod_cast key a u hu v hv
  rw [abs_div]
  norm_num
  linarith

/-- Sixteen squares whose corners are the data points with odd `a` and `b`, around the sixteen landmarks. -/
def torSurface : DataSurface (Fin 64) (Fin 16) where
  opp d :=
    let f := d.val / 4
    match d.val % 4 with
    | 0 => Fin.ofNat 64 (4 * (4 * (f / 4) + (f % 4 + 3) % 4) + 2)
    | 1 => Fin.ofNat 64 (4 * (4 * ((f / 4 + 1) % 4) + f % 4) + 3)
    | 2 => Fin.ofNat 64 (4 * (4 * (f / 4) + (f % 4 + 1) % 4) + 0)
    | _ => Fin.ofNat 64 (4 * (4 * ((f / 4 + 3) % 4) + f % 4) + 1)
  next := ⟨fun d => ⟨4 * (d.val / 4) + (d.val % 4 + 1) % 4, by omega⟩, fun d => ⟨4 * (d.val / 4) + (d.val % 4 + 3) % 4, by omega⟩,
    by decide, by decide⟩
  face d := ⟨d.val / 4, by omega⟩
  start d :=
    let f := d.val / 4
    let j := d.val % 4
    8 * ((2 * (f / 4) + if j = 1 ∨ j = 2 then 1 else 7) % 8) + (2 * (f % 4) + if j = 2 ∨ j = 3 then 1 else 7) % 8
  opp_opp := by decide +kernel
  next_face := by decide +kernel
  next_start := by decide +kernel

/-- The landmark in the centre of a square. -/
def torCentre (f : Fin 16) : ℕ := 16 * (f.val / 4) + 2 * (f.val % 4)

/-- A landmark for each data point. -/
def torNear (i : ℕ) : ℕ := 16 * (i / 16) + 2 * (i % 8 / 2)

theorem tor_ball {u i : ℕ} (h : torD u i ≤ 1) : torδ u i < 3 / 2 := by
  have : (torD u i : ℝ) ≤ 1 := by exact_mod_cast h
  unfold torδ
  linarith

theorem torSurface_inBalls : torSurface.InBalls torS torInput.nPoints torδ (3 / 2) torCentre where
  data := (by decide +kernel : ∀ d, torSurface.start d < 64)
  land := by decide +kernel
  ball d := tor_ball ((by decide +kernel : ∀ d, torD (torCentre (torSurface.face d)) (torSurface.start d) ≤ 1) d)

theorem tor_chosen : ChosenLandmarks torS torInput.nPoints torδ (3 / 2) torNear := by
  intro i hi
  have key : ∀ i < 64, torNear i ∈ torS ∧ torD (torNear i) i ≤ 1 := by decide +kernel
  exact ⟨(key i hi).1, tor_ball (key i hi).2⟩

theorem tor_cup {c : Fin 2 → ℕ → ℕ → ℤ} (hc : ∀ a, ∀ u ∈ torS, ∀ v ∈ torS, c a u v = listForm (torL a) u v) :
    torSurface.cup (c 0) (c 1) torCentre torNear = 2 := by
  have : torSurface.cup (listForm (torL 0)) (listForm (torL 1)) torCentre torNear = 2 := by decide +kernel
  rw [← this]
  unfold DataSurface.cup wedge
  refine sum_congr rfl fun d _ => ?_
  have m1 := (tor_chosen _ (torSurface_inBalls.data d)).1
  have m2 := torSurface_inBalls.land (torSurface.face (torSurface.opp d))
  have m3 := torSurface_inBalls.land (torSurface.face d)
  rw [hc 0 _ m1 _ m2, hc 0 _ m2 _ m3, hc 1 _ m1 _ m2, hc 1 _ m2 _ m3]

/-- Some numbers select the two classes, in whatever order they are stored. -/
theorem tor_selects {σ : List ℕ} (hσ : σ.Perm [0, 1]) : ∃ z : Fin 2 → ℕ, SelectsClasses [(.fin 2, .fin 4), (.fin 2, .fin 4)]
    [listRows (torL 0), listRows (torL 1)] σ z (fun _ => 2) (fun _ => 4) (fun a => listForm (torL a)) := by
  have hz : ∀ a : Fin 2, ∃ z : ℕ, σ[z]? = some a.val := by
    intro a
    have : a.val ∈ σ := hσ.mem_iff.2 (by fin_cases a <;> simp)
    obtain ⟨z, hz, e⟩ := List.mem_iff_getElem.1 this
    exact ⟨z, by rw [List.getElem?_eq_getElem hz, e]⟩
  choose z hz using hz
  refine ⟨z, ⟨fun a => ⟨a.val, listRows (torL a), hz a, ?_, ?_, torξ_lists a⟩⟩⟩
  · fin_cases a <;> rfl
  · fin_cases a <;> rfl

/-- C126: the two circular coordinates of the torus map it with degree 1: the total signed area of the squares is `(2 π)²`. -/
example (fuel : ℕ) : ∃ (o : ToroObj) (z : Fin 2 → ℕ) (θ : Fin 2 → ℕ → Fl ℝ), toroInit idealArgsort torRipser torInput 16 3 1 = .ok o ∧
    (∀ a, (circularGetCoordinates idealEnv fuel o (.fin (1 / 2)) (.int (z a)) bumpLinear false true).2 = .ok (θ a)) ∧
    (∀ a, ∃ X, torSurface.Unrolls (θ a) X) ∧
    ∀ X Y, torSurface.Unrolls (θ 0) X → torSurface.Unrolls (θ 1) Y → torSurface.signedArea X Y = (2 * π) ^ 2 := by
  obtain ⟨o, dgm, coc, σ, h1, h5, h6, h7, h8⟩ := C126_circular_degree torInput torInput_describes torRipser_spec
    idealArgsort idealArgsort_spec le_rfl (by norm_num) (by norm_num) (fun _ => rfl) (by norm_num)
  simp only [torRipser] at h5 h6
  simp at h5 h6
  subst h5 h6
  obtain ⟨z, hz⟩ := tor_selects h7.1
  have h9 := h8 z _ _ _ hz idealEnv (1 / 10) (1 / 10) (by norm_num) (by norm_num) idealMilp_sound idealMilp_complete fuel (fun _ => [])
    (fun _ => 1 / 2) (fun _ => false) (fun _ => bumpLinear) (fun _ => by norm_num) (fun _ => positiveBump_linear) (fun _ => 3 / 2)
    (fun _ => by norm_num) (fun _ => belowDeath_id.2 (by norm_num))
  simp only [show (2 : ℝ) * (3 / 2) = 3 by norm_num] at h9
  obtain ⟨θ, w, c, f, e1, e2, e3, e4, e5⟩ := h9 fun a => ⟨_, torξ_lift a⟩
  have hc : ∀ a, ∀ u ∈ torS, ∀ v ∈ torS, c a u v = listForm (torL a) u v := fun a => (e2 a).2 _ (torξ_lift a)
    ((by decide +kernel : ∀ a, ∀ u ∈ torS, ∀ v ∈ torS, |2 * listForm (torL a) u v| < 3) a)
  obtain ⟨q1, n, q2, -, -, q3⟩ := e5 (fun _ => 1 / 4) (fun a => tor_formBound (hc a) (e4 idealLsqr_exact a)) (Fin 64) (Fin 16) torSurface
    torCentre torNear (fun _ => torSurface_inBalls) (fun _ => tor_chosen) (fun _ => Or.inl le_rfl)
  refine ⟨o, z, θ, h1, e1, q1, ?_⟩
  rw [tor_cup hc] at q2
  obtain rfl : n = 1 := by omega
  intro X Y hX hY
  rw [q3 X Y hX hY]
  norm_num

end

end Dreimac
