import Verif.Props.Chern
import Verif.Props.EndToEnd2Examples

/-!
# C124 for an octahedron of landmarks, with data points at the centres of its faces
-/

namespace Dreimac

open Real Finset

/-- Ten times the distance from the vertex `l` of an octahedron to data point `i`: a vertex for `i < 6`, and the centre of the face
number `(i - 6) % 8` for `i ≥ 6`. -/
def cheDist (l i : ℕ) : ℕ :=
  if i < 6 then octaDist l i else if (i - 6) % 8 / 2 ^ (l / 2) % 2 = l % 2 then 6 else 15

noncomputable def cheδ (u i : ℕ) : ℝ := (cheDist u i : ℝ) / 10

/-- A rectangular distance matrix: the six vertices of the octahedron against `N` data points. -/
noncomputable def cheInput (N : ℕ) : DataInput := ⟨6, N, cheδ, .float, true⟩

/-- What ripser returns: all vertices as landmarks, one class of dimension 2, with value 40 on one triangle. -/
noncomputable def cheRipser : RipserResult ℝ :=
  ⟨[[(.fin 0, .pinf)], [], [(.fin 1, .fin 2)]], [3, 0, 2, 4, 1, 5], [[], [], [[⟨[4, 0, 2], 40⟩]]],
    fun l i => .fin (cheδ ([3, 0, 2, 4, 1, 5].getD l 0) i)⟩

theorem cheDist_face (l i : ℕ) (hi : ¬ i < 6) : cheDist l i = cheDist l (6 + (i - 6) % 8) := by
  simp [cheDist, hi]

theorem cheInput_describes (N : ℕ) (hN : 6 ≤ N) : DescribesData (cheInput N) cheδ where
  rows := hN
  metric := by
    refine ⟨fun u _ i _ => by unfold cheδ; positivity, ?_, ?_⟩
    · intro u hu v hv
      have : ∀ u < 6, ∀ v < 6, cheDist u v = cheDist v u := by decide
      unfold cheδ
      rw [this u hu v hv]
    · intro u hu v hv i _
      have key : cheDist u v ≤ cheDist u i + cheDist v i := by
        have h1 : ∀ l < 6, ∀ m < 6, ∀ i < 14, cheDist l m ≤ cheDist l i + cheDist m i := by decide +kernel
        by_cases hi : i < 6
        · exact h1 u hu v hv i (by omega)
        · rw [cheDist_face u i hi, cheDist_face v i hi]
          exact h1 u hu v hv _ (by omega)
      have : (cheDist u v : ℝ) ≤ cheDist u i + cheDist v i := by exact_mod_cast key
      unfold cheδ
      linarith
  entries := fun _ _ _ _ _ => rfl

theorem cheRipser_spec : RipserSpec id 6 6 cheδ 41 2 cheRipser where
  count := rfl
  nodup := (by decide : [3, 0, 2, 4, 1, 5].Nodup)
  range := (by decide : ∀ v ∈ [3, 0, 2, 4, 1, 5], v < 6)
  dists := by
    intro l h i _
    show Fl.fin (cheδ (cheRipser.idxPerm.getD l 0) i) = _
    rw [getD_of_lt h]
  dims := ⟨rfl, rfl⟩
  classes := (ochRipser_spec 41 40 (by norm_num) (by norm_num)).classes
  intervals := (ochRipser_spec 41 40 (by norm_num) (by norm_num)).intervals
  simplices := (ochRipser_spec 41 40 (by norm_num) (by norm_num)).simplices
  cocycles := by
    intro dgm coc h1 h2 j pt c h3 h4
    simp [cheRipser] at h1
    subst h1
    simp at h3

/-- The landmarks. -/
abbrev cheS : Finset ℕ := [3, 0, 2, 4, 1, 5].toFinset

theorem che_lt {u i : ℕ} {n : ℕ} (h : cheδ u i < n / 10) : cheDist u i < n := by
  unfold cheδ at h
  have : (cheDist u i : ℝ) < n := by linarith
  exact_mod_cast this

theorem che_cocycle {c₀ : List ZRow} {c : ℕ → ℕ → ℕ → ℤ} {p : ℤ} (hc : ListsLift2 p cheS c₀ c) :
    IsDataCocycle2 cheS cheδ (2 * (3 / 4)) c := by
  have e : ∀ u ∈ cheS, ∀ v ∈ cheS, cheδ u v = ochδ u v := by
    intro u hu v hv
    have : ∀ u ∈ cheS, ∀ v ∈ cheS, cheDist u v = octaDist u v := by decide
    unfold cheδ ochδ
    rw [this u hu v hv]
  intro u hu v hv w hw z hz h1 h2 h3 h4 h5 h6
  rw [e _ hu _ hv] at h1
  rw [e _ hu _ hw] at h2
  rw [e _ hu _ hz] at h3
  rw [e _ hv _ hw] at h4
  rw [e _ hv _ hz] at h5
  rw [e _ hw _ hz] at h6
  exact och_cocycle hc u hu v hv w hw z hz h1 h2 h3 h4 h5 h6

/-- The lift of the class: `-1` on the triangle `(4, 0, 2)`. -/
def cheC (u v w : ℕ) : ℤ :=
  if [u, v, w] ∈ [[0, 2, 4], [2, 4, 0], [4, 0, 2]] then -1 else if [u, v, w] ∈ [[2, 0, 4], [0, 4, 2], [4, 2, 0]] then 1 else 0

theorem che_lift {c : ℕ → ℕ → ℕ → ℤ} (hc : ListsLift2 41 cheS [⟨[4, 0, 2], 40⟩] c) :
    ∀ u ∈ cheS, ∀ v ∈ cheS, ∀ w ∈ cheS, c u v w = cheC u v w := by
  obtain ⟨u, v, w', q1, -, -, -, q2, q3, q4⟩ := hc.rows _ (List.mem_singleton.2 rfl)
  simp only [List.cons.injEq, and_true] at q1
  obtain ⟨r1, r2, r3⟩ := q1
  obtain rfl : u = 4 := by omega
  obtain rfl : v = 0 := by omega
  obtain rfl : w' = 2 := by omega
  have hval : c 4 0 2 = -1 := by
    obtain ⟨y, hy⟩ := q2
    simp only at hy
    omega
  have m0 : 0 ∈ cheS := by decide
  have m2 : 2 ∈ cheS := by decide
  have m4 : 4 ∈ cheS := by decide
  have v1 := hc.swap12 4 m4 0 m0 2 m2
  have v2 := hc.swap23 4 m4 0 m0 2 m2
  have v3 := hc.swap23 0 m0 4 m4 2 m2
  have v4 := hc.swap12 4 m4 2 m2 0 m0
  have v5 := hc.swap12 0 m0 2 m2 4 m4
  rw [hval] at v1 v2
  intro u hu v hv w hw
  by_cases h : [u, v, w] ∈ [[0, 2, 4], [2, 4, 0], [4, 0, 2], [2, 0, 4], [0, 4, 2], [4, 2, 0]]
  · simp only [List.mem_cons, List.not_mem_nil, or_false, List.cons.injEq, and_true] at h
    rcases h with ⟨rfl, rfl, rfl⟩ | ⟨rfl, rfl, rfl⟩ | ⟨rfl, rfl, rfl⟩ | ⟨rfl, rfl, rfl⟩ | ⟨rfl, rfl, rfl⟩ | ⟨rfl, rfl, rfl⟩
    all_goals simp [cheC]
    all_goals omega
  · have key : ∀ u ∈ cheS, ∀ v ∈ cheS, ∀ w ∈ cheS,
        [u, v, w] ∉ [[0, 2, 4], [2, 4, 0], [4, 0, 2], [2, 0, 4], [0, 4, 2], [4, 2, 0]] →
        cheC u v w = 0 ∧ ¬ [(4 : ℤ), 0, 2].Perm [(u : ℤ), (v : ℤ), (w : ℤ)] := by decide +kernel
    rw [(key u hu v hv w hw h).1]
    refine hc.unlisted u hu v hv w hw ?_
    intro r hr
    simp only [List.mem_singleton] at hr
    subst hr
    exact (key u hu v hv w hw h).2

/-- Eight times the harmonic form: `±1` on every triangle of the octahedron. -/
def cheH (u v w : ℕ) : ℤ :=
  if u / 2 = v / 2 ∨ v / 2 = w / 2 ∨ u / 2 = w / 2 then 0
  else (if u < v then 1 else -1) * (if v < w then 1 else -1) * (if u < w then 1 else -1) * (if (u + v + w) % 2 = 0 then -1 else 1)

/-- Eight times a potential of the difference. -/
def cheG (u v : ℕ) : ℤ :=
  ([[0, 0, -1, 1, 2, 0], [0, 0, 1, -1, -2, 0], [1, -1, 0, 0, -4, 0], [-1, 1, 0, 0, 0, 0], [-2, 2, 4, 0, 0, 0],
    [0, 0, 0, 0, 0, 0]].getD u []).getD v 0

/-- A minimal form for the class has values at most `1 / 8`. -/
theorem che_bound {c : ℕ → ℕ → ℕ → ℤ} (hc : ∀ u ∈ cheS, ∀ v ∈ cheS, ∀ w ∈ cheS, c u v w = cheC u v w) {ν : ℕ → ℕ → ℝ}
    (hν : ∀ u v, ν v u = -ν u v)
    (hmin : ∀ g : ℕ → ℕ → ℝ, (∀ u ∈ [3, 0, 2, 4, 1, 5], ∀ v ∈ [3, 0, 2, 4, 1, 5], g v u = -g u v) →
      dataEnergy2 cheS cheδ (2 * (3 / 4)) c ν ≤ dataEnergy2 cheS cheδ (2 * (3 / 4)) c g) :
    FormBound2 cheS cheδ (2 * (3 / 4)) c ν (1 / 8) := by
  classical
  set φ : ℕ → ℕ → ℝ := fun u v => cheG u v / 8 - ν u v with hφ
  let close : ℕ → ℕ → ℕ → Prop := fun u v w => cheδ u v < 2 * (3 / 4) ∧ cheδ v w < 2 * (3 / 4) ∧ cheδ u w < 2 * (3 / 4)
  have hclose : ∀ {u v}, cheδ u v < 2 * (3 / 4) ↔ cheDist u v < 15 := by
    intro u v
    unfold cheδ
    constructor
    · intro h
      have : (cheDist u v : ℝ) < 15 := by linarith
      exact_mod_cast this
    · intro h
      have : (cheDist u v : ℝ) < 15 := by exact_mod_cast h
      linarith
  have hH : ∀ u ∈ cheS, ∀ v ∈ cheS, ∀ w ∈ cheS, close u v w → (c u v w : ℝ) - (cheG u v / 8 + cheG v w / 8 - cheG u w / 8) =
      cheH u v w / 8 := by
    intro u hu v hv w hw h
    have key : ∀ u ∈ cheS, ∀ v ∈ cheS, ∀ w ∈ cheS, cheDist u v < 15 → cheDist v w < 15 → cheDist u w < 15 →
        8 * cheC u v w - (cheG u v + cheG v w - cheG u w) = cheH u v w := by decide +kernel
    have := key u hu v hv w hw (hclose.1 h.1) (hclose.1 h.2.1) (hclose.1 h.2.2)
    have : 8 * (cheC u v w : ℝ) - (cheG u v + cheG v w - cheG u w) = cheH u v w := by exact_mod_cast this
    rw [hc u hu v hv w hw, ← this]
    ring
  have hfar : ∀ u ∈ cheS, ∀ v ∈ cheS, ∀ w ∈ cheS, ¬ close u v w → cheH u v w = 0 := by
    intro u hu v hv w hw h
    have key : ∀ u ∈ cheS, ∀ v ∈ cheS, ∀ w ∈ cheS, ¬ (cheDist u v < 15 ∧ cheDist v w < 15 ∧ cheDist u w < 15) → cheH u v w = 0 := by
      decide +kernel
    refine key u hu v hv w hw fun h' => h ⟨hclose.2 h'.1, hclose.2 h'.2.1, hclose.2 h'.2.2⟩
  have hη : ∀ u ∈ cheS, ∀ v ∈ cheS, ∀ w ∈ cheS, close u v w → (c u v w : ℝ) - (ν u v + ν v w - ν u w) =
      cheH u v w / 8 + (φ u v + φ v w - φ u w) := by
    intro u hu v hv w hw h
    rw [← hH u hu v hv w hw h]
    simp only [hφ]
    ring
  have horth : ∑ u ∈ cheS, ∑ v ∈ cheS, ∑ w ∈ cheS, (cheH u v w : ℝ) * (φ u v + φ v w - φ u w) = 0 := by
    have k1 : ∀ u ∈ cheS, ∀ v ∈ cheS, ∑ w ∈ cheS, cheH u v w = 0 := by decide +kernel
    have k2 : ∀ v ∈ cheS, ∀ w ∈ cheS, ∑ u ∈ cheS, cheH u v w = 0 := by decide +kernel
    have k3 : ∀ u ∈ cheS, ∀ w ∈ cheS, ∑ v ∈ cheS, cheH u v w = 0 := by decide +kernel
    have e1 : ∑ u ∈ cheS, ∑ v ∈ cheS, ∑ w ∈ cheS, (cheH u v w : ℝ) * φ u v = 0 := by
      refine sum_eq_zero fun u hu => sum_eq_zero fun v hv => ?_
      rw [← sum_mul, ← Int.cast_sum, k1 u hu v hv]; simp
    have e2 : ∑ u ∈ cheS, ∑ v ∈ cheS, ∑ w ∈ cheS, (cheH u v w : ℝ) * φ v w = 0 := by
      rw [sum_comm]
      refine sum_eq_zero fun v hv => ?_
      rw [sum_comm]
      refine sum_eq_zero fun w hw => ?_
      rw [← sum_mul, ← Int.cast_sum, k2 v hv w hw]; simp
    have e3 : ∑ u ∈ cheS, ∑ v ∈ cheS, ∑ w ∈ cheS, (cheH u v w : ℝ) * φ u w = 0 := by
      refine sum_eq_zero fun u hu => ?_
      rw [sum_comm]
      refine sum_eq_zero fun w hw => ?_
      rw [← sum_mul, ← Int.cast_sum, k3 u hu w hw]; simp
    have e : ∀ u v w, (cheH u v w : ℝ) * (φ u v + φ v w - φ u w) =
        cheH u v w * φ u v + cheH u v w * φ v w - cheH u v w * φ u w := fun u v w => by ring
    simp only [e, sum_add_distrib, sum_sub_distrib, e1, e2, e3]
    norm_num
  have hE := hmin (fun u v => cheG u v / 8) (by
    intro u hu v hv
    have key : ∀ u ∈ [3, 0, 2, 4, 1, 5], ∀ v ∈ [3, 0, 2, 4, 1, 5], cheG v u = -cheG u v := by decide +kernel
    rw [key u hu v hv]
    push_cast
    ring)
  have hdiff : dataEnergy2 cheS cheδ (2 * (3 / 4)) c ν = dataEnergy2 cheS cheδ (2 * (3 / 4)) c (fun u v => cheG u v / 8) +
      (1 / 4) * ∑ u ∈ cheS, ∑ v ∈ cheS, ∑ w ∈ cheS, (cheH u v w : ℝ) * (φ u v + φ v w - φ u w) +
      ∑ u ∈ cheS, ∑ v ∈ cheS, ∑ w ∈ cheS, if close u v w then (φ u v + φ v w - φ u w) ^ 2 else 0 := by
    unfold dataEnergy2
    rw [mul_sum, ← sum_add_distrib, ← sum_add_distrib]
    refine sum_congr rfl fun u hu => ?_
    rw [mul_sum, ← sum_add_distrib, ← sum_add_distrib]
    refine sum_congr rfl fun v hv => ?_
    rw [mul_sum, ← sum_add_distrib, ← sum_add_distrib]
    refine sum_congr rfl fun w hw => ?_
    by_cases h : close u v w
    · have h' : cheδ u v < 2 * (3 / 4) ∧ cheδ v w < 2 * (3 / 4) ∧ cheδ u w < 2 * (3 / 4) := h
      simp only [if_pos h, if_pos h']
      rw [hη u hu v hv w hw h, hH u hu v hv w hw h]
      ring
    · have h' : ¬ (cheδ u v < 2 * (3 / 4) ∧ cheδ v w < 2 * (3 / 4) ∧ cheδ u w < 2 * (3 / 4)) := h
      simp only [if_neg h, if_neg h', hfar u hu v hv w hw h]
      simp
  rw [hdiff, horth] at hE
  have hle : ∑ u ∈ cheS, ∑ v ∈ cheS, ∑ w ∈ cheS, (if close u v w then (φ u v + φ v w - φ u w) ^ 2 else 0) ≤ 0 := by linarith
  have hnn : ∀ u v w, 0 ≤ (if close u v w then (φ u v + φ v w - φ u w) ^ 2 else 0) := by
    intro u v w; split_ifs <;> positivity
  intro u hu v hv w hw h1 h2 h3
  have hz : (φ u v + φ v w - φ u w) ^ 2 = 0 := by
    have s1 := single_le_sum (f := fun u => ∑ v ∈ cheS, ∑ w ∈ cheS, (if close u v w then (φ u v + φ v w - φ u w) ^ 2 else 0))
      (fun u _ => sum_nonneg fun v _ => sum_nonneg fun w _ => hnn u v w) hu
    have s2 := single_le_sum (f := fun v => ∑ w ∈ cheS, (if close u v w then (φ u v + φ v w - φ u w) ^ 2 else 0))
      (fun v _ => sum_nonneg fun w _ => hnn u v w) hv
    have s3 := single_le_sum (f := fun w => (if close u v w then (φ u v + φ v w - φ u w) ^ 2 else 0)) (fun w _ => hnn u v w) hw
    rw [if_pos ⟨h1, h2, h3⟩] at s3
    exact le_antisymm (by linarith) (sq_nonneg _)
  rw [hη u hu v hv w hw ⟨h1, h2, h3⟩, pow_eq_zero_iff two_ne_zero |>.1 hz, add_zero]
  have key : ∀ u ∈ cheS, ∀ v ∈ cheS, ∀ w ∈ cheS, |cheH u v w| ≤ 1 := by decide +kernel
  have : |(cheH u v w : ℝ)| ≤ 1 := by exact_mod_cast key u hu v hv w hw
  rw [abs_div, abs_of_pos (by norm_num : (0 : ℝ) < 8)]
  linarith

/-- The weights at the centre of a face: `1 / 3` for its three vertices. -/
def cheW (u i : ℕ) : ℚ := if cheDist u i = 6 then 1 / 3 else 0

theorem che_weights {N : ℕ} {w : ℕ → ℕ → ℝ} (hw : IsBumpWeights cheS N cheδ (3 / 4) bumpLinear w) {i : ℕ} (hi : i < N) (h6 : 6 ≤ i)
    (h14 : i < 14) : ∀ u ∈ cheS, w u i = (cheW u i : ℝ) := by
  have key : ∀ i < 14, 6 ≤ i → (∃ u ∈ cheS, cheDist u i = 6) ∧ (∀ u ∈ cheS, cheDist u i = 6 ∨ cheDist u i = 15) ∧
      ∑ u ∈ cheS, (if cheDist u i = 6 then (3 / 20 : ℚ) else 0) = 9 / 20 := by decide +kernel
  obtain ⟨⟨u₀, hu₀, h₀⟩, hk, hsum⟩ := key i h14 h6
  obtain ⟨φ, f1, f2, f3⟩ := hw i hi ⟨u₀, hu₀, by unfold cheδ; rw [h₀]; norm_num⟩
  have hφ : ∀ u ∈ cheS, φ u = ((if cheDist u i = 6 then (3 / 20 : ℚ) else 0 : ℚ) : ℝ) := by
    intro u hu
    rcases hk u hu with h | h
    · have := (f1 u hu).1 (by unfold cheδ; rw [h]; norm_num)
      rw [if_pos h]
      unfold bumpLinear cheδ at this
      rw [h] at this
      injection this with this
      rw [← this]
      norm_num
    · rw [(f1 u hu).2 (by unfold cheδ; rw [h]; norm_num), if_neg (by omega)]
      simp
  have hs : ∑ v ∈ cheS, φ v = 9 / 20 := by
    rw [sum_congr rfl hφ, ← Rat.cast_sum, hsum]; norm_num
  intro u hu
  rw [f3 u hu, hφ u hu, hs]
  unfold cheW
  split_ifs <;> norm_num

/-- The surface: a cube whose corners are the data points 6, …, 13; its six squares are around the six landmarks. -/
def cheSurface : DataSurface (Fin 24) (Fin 6) where
  opp d := [19, 14, 23, 8, 21, 12, 17, 10, 3, 22, 7, 16, 5, 20, 1, 18, 11, 6, 15, 0, 13, 4, 9, 2].getD d 0
  next := ⟨fun d => ⟨4 * (d.val / 4) + (d.val % 4 + 1) % 4, by omega⟩, fun d => ⟨4 * (d.val / 4) + (d.val % 4 + 3) % 4, by omega⟩,
    by decide, by decide⟩
  face d := ⟨d.val / 4, by omega⟩
  start d := [6, 8, 12, 10, 11, 13, 9, 7, 6, 10, 11, 7, 9, 13, 12, 8, 6, 7, 9, 8, 12, 13, 11, 10].getD d 0
  opp_opp := by decide
  next_face := by decide
  next_start := by decide

theorem cheSurface_inBalls {N : ℕ} (hN : 14 ≤ N) : cheSurface.InBalls cheS N cheδ (3 / 4) (fun f => f.val) where
  data d := by
    have : ∀ d, cheSurface.start d < 14 := by decide
    exact (this d).trans_le hN
  land := by decide
  ball d := by
    have : ∀ d, cheDist (cheSurface.face d).val (cheSurface.start d) = 6 := by decide
    unfold cheδ
    rw [this d]; norm_num

theorem cheSurface_small {N : ℕ} (hN : 14 ≤ N) {w : ℕ → ℕ → ℝ} (hw : IsBumpWeights cheS N cheδ (3 / 4) bumpLinear w) :
    cheSurface.Small cheS w (1 / 8) := by
  have hr : ∀ d, 6 ≤ cheSurface.start d ∧ cheSurface.start d < 14 := by decide
  have hstep : ∀ d, cheSurface.step cheS w d = 2 / 3 := by
    intro d
    have key : ∀ d, ∑ v ∈ cheS, |cheW v (cheSurface.start (cheSurface.next d)) - cheW v (cheSurface.start d)| = 2 / 3 := by
      decide +kernel
    have : ((∑ v ∈ cheS, |cheW v (cheSurface.start (cheSurface.next d)) - cheW v (cheSurface.start d)| : ℚ) : ℝ) = 2 / 3 := by
      rw [key d]; norm_num
    rw [← this]
    unfold DataSurface.step
    push_cast
    refine sum_congr rfl fun v hv => ?_
    rw [che_weights hw ((hr d).2.trans_le hN) (hr d).1 (hr d).2 v hv,
      che_weights hw ((hr (cheSurface.next d)).2.trans_le hN) (hr _).1 (hr _).2 v hv]
  refine ⟨fun d => by rw [hstep]; norm_num, fun f => ?_⟩
  have hcard : ∀ f, (univ.filter fun d => cheSurface.face d = f).card = 4 := by decide
  rw [sum_congr rfl fun d _ => hstep d, sum_const, hcard]
  norm_num

/-- A landmark for each data point. -/
def cheNear (i : ℕ) : ℕ := if i < 6 then i else (i - 6) % 8 % 2

theorem cheNear_ok (i : ℕ) : cheNear i ∈ [3, 0, 2, 4, 1, 5] ∧ cheδ (cheNear i) i < 3 / 4 := by
  have key : ∀ i < 14, cheNear i ∈ [3, 0, 2, 4, 1, 5] ∧ cheDist (cheNear i) i ≤ 6 := by decide
  have h : cheNear i ∈ [3, 0, 2, 4, 1, 5] ∧ cheDist (cheNear i) i ≤ 6 := by
    by_cases hi : i < 6
    · exact key i (by omega)
    · have e : cheNear i = cheNear (6 + (i - 6) % 8) := by simp [cheNear, hi]
      rw [cheDist_face _ i hi, e]
      exact key _ (by omega)
  refine ⟨h.1, ?_⟩
  have : (cheDist (cheNear i) i : ℝ) ≤ 6 := by exact_mod_cast h.2
  unfold cheδ
  linarith

/-- The class has the value 1 on the surface. -/
theorem cheSurface_value {c : ℕ → ℕ → ℕ → ℤ} (hc : ListsLift2 41 cheS [⟨[4, 0, 2], 40⟩] c) :
    cheSurface.value c (fun f => f.val) cheNear = 1 := by
  have : cheSurface.value cheC (fun f => f.val) cheNear = 1 := by decide +kernel
  rw [← this]
  unfold DataSurface.value
  refine sum_congr rfl fun d _ => che_lift hc _ ?_ _ ?_ _ ?_
  · exact List.mem_toFinset.2 (cheNear_ok _).1
  · exact (cheSurface_inBalls le_rfl).land _
  · exact (cheSurface_inBalls le_rfl).land _

/-- C124 on the octahedron with 30000 data points and exact solvers: the phases of the rows around the six squares of the cube add
up to `2 π`. -/
example : ∃ (env : CPOracles) (o : ProjObj) (X : Arr ℂ) (y : ℕ → ℕ → ℂ), EighSpec env.eigh ∧ ExactLsq env.lsqr ∧
    cpInit idealArgsort cheRipser (cheInput 30000) 6 41 2 = .ok o ∧
    (cpGetCoordinates env 6 o ⟨.fin (1 / 2), .int 0, 5, bumpLinear, false, true, .exponential⟩).2 = .ok X ∧
    (∀ i < 30000, ∀ m < 6, X.at' i m = some (y i m)) ∧
    ∑ f, Complex.arg (cheSurface.around 6 y f) = 2 * π := by
  obtain ⟨eigh, he⟩ := exists_eighSpec (𝕜 := ℂ)
  obtain ⟨o, dgm, coc, σ, h1, h5, h6, h7, h8⟩ := C124_complex_projective_chern_partial (cheInput 30000)
    (cheInput_describes 30000 (by norm_num)) cheRipser_spec idealArgsort idealArgsort_spec le_rfl (by norm_num) (by norm_num)
    (fun _ => rfl) (by norm_num) (by show 10 ^ 6 < 8 * 6 * 30000; norm_num)
  simp only [cheRipser] at h5 h6
  simp at h5 h6
  subst h5 h6
  have hσ : σ = [0] := List.perm_singleton.1 h7.1
  subst hσ
  obtain ⟨c, hc, h9⟩ := h8 0 0 1 2 _ rfl rfl rfl
  obtain ⟨X, y, w, ν, e1, e2, e3, e4, e5, e6, e7, e8⟩ := h9 ⟨idealLsqr, idealMilp, eigh⟩ 6 [] (1 / 2) false true bumpLinear
    .exponential he le_rfl (by norm_num) positiveBump_linear (by simp) (3 / 4) (by norm_num) (che_cocycle hc)
    (fun i _ => ⟨cheNear i, cheNear_ok i⟩)
  have hM := che_bound (che_lift hc) e6 (e7 idealLsqr_exact)
  obtain ⟨-, q⟩ := e8 _ hM (Fin 24) (Fin 6) cheSurface (fun f => f.val) cheNear
    (cheSurface_inBalls (show 14 ≤ 30000 by norm_num)) (cheSurface_small (N := 30000) (by norm_num) e5) (fun i _ => cheNear_ok i)
  refine ⟨⟨idealLsqr, idealMilp, eigh⟩, o, X, y, he, idealLsqr_exact, h1, e1, e4, ?_⟩
  rw [q, cheSurface_value hc]
  simp

/-- C124 on the same octahedron with 14 data points: all phases are zero, although the class has the value 1 on the surface. -/
example (env : CPOracles) (he : EighSpec env.eigh) : ∃ (o : ProjObj) (X : Arr ℂ) (y : ℕ → ℕ → ℂ) (c : ℕ → ℕ → ℕ → ℤ),
    cpInit idealArgsort cheRipser (cheInput 14) 6 41 2 = .ok o ∧ ListsLift2 41 cheS [⟨[4, 0, 2], 40⟩] c ∧
    (cpGetCoordinates env 6 o ⟨.fin (1 / 2), .int 0, 5, bumpLinear, false, true, .exponential⟩).2 = .ok X ∧
    (∀ i < 14, ∀ m < 6, X.at' i m = some (y i m)) ∧
    cheSurface.value c (fun f => f.val) cheNear = 1 ∧ ∑ f, Complex.arg (cheSurface.around 6 y f) = 0 := by
  obtain ⟨o, dgm, coc, σ, h1, h5, h6, h7, h8⟩ := C124_small_data (cheInput 14)
    (cheInput_describes 14 (by norm_num)) cheRipser_spec idealArgsort idealArgsort_spec le_rfl (by norm_num) (by norm_num)
    (fun _ => rfl) (by norm_num) (by show 8 * 6 * 14 ≤ 10 ^ 6; norm_num)
  simp only [cheRipser] at h5 h6
  simp at h5 h6
  subst h5 h6
  have hσ : σ = [0] := List.perm_singleton.1 h7.1
  subst hσ
  obtain ⟨c, hc, h9⟩ := h8 0 0 1 2 _ rfl rfl rfl
  obtain ⟨X, y, e1, e2, e3, e4, e8⟩ := h9 env 6 [] (1 / 2) false true bumpLinear
    .exponential he le_rfl (by norm_num) positiveBump_linear (by simp) (3 / 4) (by norm_num) (che_cocycle hc)
    (fun i _ => ⟨cheNear i, cheNear_ok i⟩)
  exact ⟨o, X, y, c, h1, hc, e1, e4, cheSurface_value hc,
    (e8 (Fin 24) (Fin 6) cheSurface (fun f => f.val) (cheSurface_inBalls (show 14 ≤ 14 by norm_num))).2⟩

end Dreimac
