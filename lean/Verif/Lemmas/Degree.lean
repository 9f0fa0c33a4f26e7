import Verif.Spec.Degree
import Verif.Props.EndToEndWinding

/-!
# Lemmas: signed areas of closed surfaces
-/

namespace Dreimac

open Finset Real

variable {D F : Type} (s : DataSurface D F)

/-- The next half-edge around the same corner. -/
def DataSurface.rot (d : D) : D := s.next (s.opp d)

theorem DataSurface.rot_start (d : D) : s.start (s.rot d) = s.start d := by
  rw [DataSurface.rot, s.next_start, s.opp_opp]

theorem DataSurface.rot_face (d : D) : s.face (s.rot d) = s.face (s.opp d) := s.next_face _

theorem DataSurface.rot_opp (d : D) : s.rot (s.opp d) = s.next d := by rw [DataSurface.rot, s.opp_opp]

variable [Fintype D]

theorem DataSurface.sum_opp {E : Type} [AddCommMonoid E] (f : D → E) : ∑ d, f (s.opp d) = ∑ d, f d :=
  Equiv.sum_comp (⟨s.opp, s.opp, s.opp_opp, s.opp_opp⟩ : Equiv.Perm D) f

theorem DataSurface.sum_next {E : Type} [AddCommMonoid E] (f : D → E) : ∑ d, f (s.next d) = ∑ d, f d :=
  Equiv.sum_comp s.next f

theorem DataSurface.sum_rot {E : Type} [AddCommMonoid E] (f : D → E) : ∑ d, f (s.rot d) = ∑ d, f d :=
  (s.sum_opp fun d => f (s.next d)).trans (s.sum_next f)

/-- What is known of one coordinate: lifts `X` at the corners, transitions `a` across the edges, and `e` from the landmark chosen for
the corner. -/
structure Transitions (X : D → ℝ) (a e : D → ℤ) : Prop where
  cross : ∀ d, X (s.rot d) = X d + a d
  opp : ∀ d, a (s.opp d) = -a d
  fan : ∀ d, a d = e (s.rot d) - e d

variable {s} {X Y : D → ℝ} {a e a' e' : D → ℤ}

/-- The signed area. -/
theorem Transitions.area (h : Transitions s X a e) (h' : Transitions s Y a' e')
    {x y : D → ℝ} (hx : ∀ d, X d = x d + e d) (hy : ∀ d, Y d = y d + e' d) (hxr : ∀ d, x (s.rot d) = x d)
    (hyr : ∀ d, y (s.rot d) = y d) : s.signedArea X Y = ((∑ d, (a d * e' d - a' d * e d) : ℤ) : ℝ) / 2 := by
  have hX : ∀ d, X (s.next d) = X (s.opp d) - a d := by
    intro d
    rw [← s.rot_opp, h.cross, h.opp]; push_cast; ring
  have hY : ∀ d, Y (s.next d) = Y (s.opp d) - a' d := by
    intro d
    rw [← s.rot_opp, h'.cross, h'.opp]; push_cast; ring
  unfold DataSurface.signedArea
  rw [← sum_div]
  congr 1
  have e0 : ∑ d, X d * Y (s.opp d) = ∑ d, X (s.opp d) * Y d := by
    rw [← s.sum_opp fun d => X d * Y (s.opp d)]
    exact sum_congr rfl fun d _ => by rw [s.opp_opp]
  have e1 : ∀ (v : D → ℝ) (n : D → ℤ), (∀ d, v (s.rot d) = v d) → ∑ d, ((n (s.rot d) : ℝ) - n d) * v d = 0 := by
    intro v n hv
    have := s.sum_rot fun d => (n d : ℝ) * v d
    simp only [sub_mul, sum_sub_distrib]
    rw [← this]
    simp only [hv]
    ring
  have e2 := e1 y e hyr
  have e3 := e1 x e' hxr
  push_cast
  calc ∑ d, (X d * Y (s.next d) - X (s.next d) * Y d)
      = ∑ d, X d * Y (s.opp d) - ∑ d, X (s.opp d) * Y d + ∑ d, ((a d : ℝ) * e' d - a' d * e d)
        + (∑ d, ((e (s.rot d) : ℝ) - e d) * y d - ∑ d, ((e' (s.rot d) : ℝ) - e' d) * x d) := by
        rw [← sum_sub_distrib, ← sum_sub_distrib, ← sum_add_distrib, ← sum_add_distrib]
        refine sum_congr rfl fun d _ => ?_
        have f1 : (a d : ℝ) = e (s.rot d) - e d := by rw [h.fan]; push_cast; ring
        have f2 : (a' d : ℝ) = e' (s.rot d) - e' d := by rw [h'.fan]; push_cast; ring
        rw [hX, hY, ← f1, ← f2, hx d, hy d]
        ring
    _ = ∑ d, ((a d : ℝ) * e' d - a' d * e d) := by rw [e0, e2, e3]; ring

/-- The sum is even. -/
theorem Transitions.even (h : Transitions s X a e) (h' : Transitions s Y a' e') : ∃ n : ℤ, 2 * n = ∑ d, (a d * e' d - a' d * e d) := by
  have key : ((∑ d, (a d * e' d - a' d * e d) : ℤ) : ZMod 2) = 0 := by
    have k1 : ∑ d, (a d * e' d + a' d * e d + a d * a' d) = 0 := by
      have : ∀ d, a d * e' d + a' d * e d + a d * a' d = e (s.rot d) * e' (s.rot d) - e d * e' d := by
        intro d; rw [h.fan, h'.fan]; ring
      rw [sum_congr rfl fun d _ => this d, sum_sub_distrib, s.sum_rot fun d => e d * e' d, sub_self]
    have k2 : ∑ d, ((a d * a' d : ℤ) : ZMod 2) = 0 := by
      refine sum_involution (fun d _ => s.opp d) ?_ ?_ (fun _ _ => mem_univ _) (fun d _ => s.opp_opp d)
      · intro d _
        rw [h.opp, h'.opp, neg_mul_neg]
        exact CharTwo.add_self_eq_zero _
      · intro d _ hne heq
        apply hne
        have := h.opp d
        rw [heq] at this
        have : a d = 0 := by omega
        rw [this]; simp
    have k3 : ∑ d, (a d * e' d - a' d * e d) = -(2 * ∑ d, a' d * e d) - ∑ d, a d * a' d := by
      have : ∑ d, (a d * e' d - a' d * e d) = ∑ d, (a d * e' d + a' d * e d + a d * a' d) - 2 * ∑ d, a' d * e d - ∑ d, a d * a' d := by
        rw [mul_sum, ← sum_sub_distrib, ← sum_sub_distrib]
        exact sum_congr rfl fun d _ => by ring
      rw [this, k1]; ring
    have two : (2 : ZMod 2) = 0 := rfl
    rw [k3]
    push_cast
    rw [two, zero_mul, neg_zero, zero_sub, neg_eq_zero]
    simpa using k2
  obtain ⟨n, hn⟩ := (ZMod.intCast_zmod_eq_zero_iff_dvd _ 2).1 key
  exact ⟨n, hn.symm⟩

/-- Different ways of unrolling give the same area. -/
theorem area_shift {X' Y' : D → ℝ} {t t' : D → ℝ} (hX : ∀ d, X' d = X d + t d) (hY : ∀ d, Y' d = Y d + t' d)
    (ht : ∀ d, t (s.next d) = t d) (ht' : ∀ d, t' (s.next d) = t' d) : s.signedArea X' Y' = s.signedArea X Y := by
  unfold DataSurface.signedArea
  have e1 : ∑ d, t d * (Y (s.next d) - Y d) = 0 := by
    have := s.sum_next fun d => t d * Y d
    simp only [ht] at this
    simp only [mul_sub, sum_sub_distrib]
    rw [this, sub_self]
  have e2 : ∑ d, t' d * (X (s.next d) - X d) = 0 := by
    have := s.sum_next fun d => t' d * X d
    simp only [ht'] at this
    simp only [mul_sub, sum_sub_distrib]
    rw [this, sub_self]
  have : ∑ d, (X' d * Y' (s.next d) - X' (s.next d) * Y' d) / 2 = ∑ d, (X d * Y (s.next d) - X (s.next d) * Y d) / 2 +
      ((∑ d, t d * (Y (s.next d) - Y d)) - ∑ d, t' d * (X (s.next d) - X d)) / 2 := by
    rw [← sum_sub_distrib, sum_div, ← sum_add_distrib]
    refine sum_congr rfl fun d _ => ?_
    rw [hX, hX, hY, hY, ht, ht']
    ring
  rw [this, e1, e2]
  ring

section
variable {S : Finset ℕ} {N : ℕ} {δ : ℕ → ℕ → ℝ} {r : ℝ} {bump : Fl ℝ → Fl ℝ → Fl ℝ} {w : ℕ → ℕ → ℝ} {c : ℕ → ℕ → ℤ} {f : ℕ → ℝ}
  {θ : ℕ → Fl ℝ}

/-- The lift of a data coordinate changes little between two points of a ball. -/
theorem IsDataCoordinate.lift_step (hw : IsBumpWeights S N δ r bump w)
    (hb : PositiveBump bump) (hnn : ∀ u ∈ S, ∀ i < N, 0 ≤ δ u i)
    (htri : ∀ u ∈ S, ∀ v ∈ S, ∀ i < N, δ u v ≤ δ u i + δ v i) {M : ℝ} (hM : FormBound S δ (2 * r) c f M) {u i j : ℕ} (hu : u ∈ S)
    (hi : i < N) (hj : j < N) (hui : δ u i < r) (huj : δ u j < r) (hs : M ≤ 1 / 4 ∨ M * ∑ v ∈ S, |w v j - w v i| < 1 / 2) :
    |∑ v ∈ S, (f v + c u v) * w v j - ∑ v ∈ S, (f v + c u v) * w v i| < 1 / 2 := by
  obtain ⟨n1, p1, s1⟩ := hw.facts hb hnn hi ⟨_, hu, hui⟩
  obtain ⟨n2, p2, s2⟩ := hw.facts hb hnn hj ⟨_, hu, huj⟩
  have e : ∑ v ∈ S, (f v + c u v) * w v j - ∑ v ∈ S, (f v + c u v) * w v i =
      ∑ v ∈ S, ((c u v : ℝ) - (f u - f v)) * (w v j - w v i) := by
    have : ∑ v ∈ S, f u * (w v j - w v i) = 0 := by
      rw [← mul_sum, sum_sub_distrib, s1, s2]; ring
    rw [← sum_sub_distrib, ← add_zero (∑ v ∈ S, ((c u v : ℝ) - (f u - f v)) * _), ← this, ← sum_add_distrib]
    exact sum_congr rfl fun v _ => by ring
  have hle : |∑ v ∈ S, (f v + c u v) * w v j - ∑ v ∈ S, (f v + c u v) * w v i| ≤ M * ∑ v ∈ S, |w v j - w v i| := by
    rw [e, mul_sum]
    refine (abs_sum_le_sum_abs _ _).trans (sum_le_sum fun v hv => ?_)
    rw [abs_mul]
    by_cases hd : δ u v < 2 * r
    · exact mul_le_mul_of_nonneg_right (hM _ hu v hv hd) (abs_nonneg _)
    · have z1 : w v i = 0 := by
        by_contra hne
        have := (p1 v hv).1 (lt_of_le_of_ne (n1 v hv) (Ne.symm hne))
        have := htri _ hu v hv _ hi
        linarith
      have z2 : w v j = 0 := by
        by_contra hne
        have := (p2 v hv).1 (lt_of_le_of_ne (n2 v hv) (Ne.symm hne))
        have := htri _ hu v hv _ hj
        linarith
      rw [z1, z2]; simp
  refine hle.trans_lt ?_
  rcases hs with hs | hs
  · have h1 : ∑ v ∈ S, |w v j - w v i| < 2 := by
      calc ∑ v ∈ S, |w v j - w v i| < ∑ v ∈ S, (w v j + w v i) := by
            apply sum_lt_sum
            · intro v hv
              have h1 := n1 v hv
              have h2 := n2 v hv
              rw [abs_le]; constructor <;> linarith
            · refine ⟨u, hu, ?_⟩
              have h1 := (p1 _ hu).2 hui
              have h2 := (p2 _ hu).2 huj
              rw [abs_lt]; constructor <;> linarith
        _ = 2 := by rw [sum_add_distrib, s1, s2]; norm_num
    have h2 : 0 ≤ ∑ v ∈ S, |w v j - w v i| := sum_nonneg fun _ _ => abs_nonneg _
    nlinarith
  · exact hs

/-- Lifts of the same angles with small steps differ by constants. -/
theorem unrolls_shift {X X' : D → ℝ} (h : s.Unrolls θ X) (h' : s.Unrolls θ X') :
    ∃ t : D → ℝ, (∀ d, X' d = X d + t d) ∧ ∀ d, t (s.next d) = t d := by
  refine ⟨fun d => X' d - X d, fun d => by ring, fun d => ?_⟩
  have hz : ∀ d, ∃ z : ℤ, X' d - X d = z * (2 * π) := by
    intro d
    obtain ⟨y, hy, z1, h1⟩ := h.angle d
    obtain ⟨y', hy', z2, h2⟩ := h'.angle d
    rw [hy] at hy'
    injection hy' with hy'
    subst hy'
    refine ⟨z1 - z2, ?_⟩
    push_cast
    linear_combination h1 - h2
  obtain ⟨z, hz1⟩ := hz d
  obtain ⟨z', hz2⟩ := hz (s.next d)
  have h1 := abs_lt.1 (h.step d)
  have h2 := abs_lt.1 (h'.step d)
  have hpi := Real.pi_pos
  show X' (s.next d) - X (s.next d) = X' d - X d
  have : z' = z := by
    have k1 : ((z' : ℝ) - z) * (2 * π) < 1 * (2 * π) := by linarith
    have k2 : (-1 : ℝ) * (2 * π) < ((z' : ℝ) - z) * (2 * π) := by linarith
    have k3 := lt_of_mul_lt_mul_right k1 (by positivity)
    have k4 := lt_of_mul_lt_mul_right k2 (by positivity)
    have k5 : z' - z < 1 := by exact_mod_cast k3
    have k6 : -1 < z' - z := by exact_mod_cast k4
    omega
  rw [hz1, hz2, this]

/-- What the lifts of a data coordinate satisfy on a surface of data points. -/
theorem IsDataCoordinate.on_surface (h : IsDataCoordinate S N δ r w c f θ) {ℓ : F → ℕ} (hball : s.InBalls S N δ r ℓ) {b : ℕ → ℕ}
    (hb : ChosenLandmarks S N δ r b) :
    let X : D → ℝ := fun d => ∑ v ∈ S, (f v + c (ℓ (s.face d)) v) * w v (s.start d)
    Transitions s X (fun d => c (ℓ (s.face (s.opp d))) (ℓ (s.face d))) (fun d => c (ℓ (s.face d)) (b (s.start d))) ∧
    (∀ d, X d = ∑ v ∈ S, (f v + c (b (s.start d)) v) * w v (s.start d) + c (ℓ (s.face d)) (b (s.start d))) ∧
    ∀ d, c (b (s.start d)) (ℓ (s.face (s.opp d))) =
      -(c (ℓ (s.face (s.opp d))) (ℓ (s.face d)) + c (ℓ (s.face d)) (b (s.start d))) := by
  intro X
  have hopp : ∀ d, δ (ℓ (s.face (s.opp d))) (s.start d) < r := by
    intro d
    have := hball.ball (s.rot d)
    rwa [s.rot_face, s.rot_start] at this
  have hbs : ∀ d, b (s.start d) ∈ S ∧ δ (b (s.start d)) (s.start d) < r := fun d => hb _ (hball.data d)
  have t1 : ∀ d, X (s.rot d) = X d + (c (ℓ (s.face (s.opp d))) (ℓ (s.face d)) : ℤ) := by
    intro d
    have := h.transition _ (hball.land (s.face (s.opp d))) _ (hball.land (s.face d)) _ (hball.data d) (hopp d) (hball.ball d)
    simp only [X]
    rw [s.rot_face, s.rot_start]
    linarith
  have t2 : ∀ d, X d = ∑ v ∈ S, (f v + c (b (s.start d)) v) * w v (s.start d) + c (ℓ (s.face d)) (b (s.start d)) := by
    intro d
    have := h.transition _ (hball.land (s.face d)) _ (hbs d).1 _ (hball.data d) (hball.ball d) (hbs d).2
    simp only [X]
    linarith
  refine ⟨⟨t1, ?_, ?_⟩, t2, ?_⟩
  · intro d
    beta_reduce
    rw [s.opp_opp]
    have k1 := h.transition _ (hball.land (s.face (s.opp d))) _ (hball.land (s.face d)) _ (hball.data d) (hopp d) (hball.ball d)
    have k2 := h.transition _ (hball.land (s.face d)) _ (hball.land (s.face (s.opp d))) _ (hball.data d) (hball.ball d) (hopp d)
    have : (c (ℓ (s.face d)) (ℓ (s.face (s.opp d))) : ℝ) = -c (ℓ (s.face (s.opp d))) (ℓ (s.face d)) := by rw [← k1, ← k2]; ring
    exact_mod_cast this
  · intro d
    beta_reduce
    rw [s.rot_face, s.rot_start]
    have k1 := t1 d
    have k2 := t2 d
    have k3 := t2 (s.rot d)
    rw [s.rot_face, s.rot_start] at k3
    have : (c (ℓ (s.face (s.opp d))) (ℓ (s.face d)) : ℝ) = c (ℓ (s.face (s.opp d))) (b (s.start d)) - c (ℓ (s.face d)) (b (s.start d)) := by
      linarith
    exact_mod_cast this
  · intro d
    have k1 := h.transition _ (hbs d).1 _ (hball.land (s.face (s.opp d))) _ (hball.data d) (hbs d).2 (hopp d)
    have k2 := h.transition _ (hball.land (s.face (s.opp d))) _ (hball.land (s.face d)) _ (hball.data d) (hopp d) (hball.ball d)
    have k3 := h.transition _ (hball.land (s.face d)) _ (hbs d).1 _ (hball.data d) (hball.ball d) (hbs d).2
    have : (c (b (s.start d)) (ℓ (s.face (s.opp d))) : ℝ) =
        -(c (ℓ (s.face (s.opp d))) (ℓ (s.face d)) + c (ℓ (s.face d)) (b (s.start d))) := by rw [← k1, ← k2, ← k3]; ring
    exact_mod_cast this

/-- A data coordinate can be unrolled on a surface with short edges. -/
theorem IsDataCoordinate.unroll (h : IsDataCoordinate S N δ r w c f θ) (hw : IsBumpWeights S N δ r bump w)
    (hb : PositiveBump bump) (hnn : ∀ u ∈ S, ∀ i < N, 0 ≤ δ u i)
    (htri : ∀ u ∈ S, ∀ v ∈ S, ∀ i < N, δ u v ≤ δ u i + δ v i) {M : ℝ} (hM : FormBound S δ (2 * r) c f M) {ℓ : F → ℕ}
    (hball : s.InBalls S N δ r ℓ) (hs : s.ShortEdges S w M) :
    s.Unrolls θ (fun d => 2 * π * ∑ v ∈ S, (f v + c (ℓ (s.face d)) v) * w v (s.start d)) where
  angle d := by
    obtain ⟨y, h1, -, -, h2⟩ := h.angle _ (hball.land (s.face d)) _ (hball.data d) (hball.ball d)
    exact ⟨y, h1, h2⟩
  step d := by
    have hbn := hball.ball (s.next d)
    rw [s.next_face] at hbn
    have := IsDataCoordinate.lift_step hw hb hnn htri hM (hball.land (s.face d)) (hball.data d) (hball.data (s.next d)) (hball.ball d)
      hbn (hs.imp id fun hs => hs d)
    rw [s.next_face, ← mul_sub, abs_mul, abs_of_pos two_pi_pos']
    have hpi := Real.pi_pos
    nlinarith

end

/-- The degree of a pair of data coordinates. -/
theorem degree_of_coordinates {S : Finset ℕ} {N : ℕ} {δ : ℕ → ℕ → ℝ} {r r' : ℝ} {bump bump' : Fl ℝ → Fl ℝ → Fl ℝ} {w w' : ℕ → ℕ → ℝ}
    {c c' : ℕ → ℕ → ℤ} {f f' : ℕ → ℝ} {θ θ' : ℕ → Fl ℝ}
    (hnn : ∀ u ∈ S, ∀ i < N, 0 ≤ δ u i) (htri : ∀ u ∈ S, ∀ v ∈ S, ∀ i < N, δ u v ≤ δ u i + δ v i)
    (h : IsDataCoordinate S N δ r w c f θ) (hw : IsBumpWeights S N δ r bump w) (hb : PositiveBump bump)
    (h' : IsDataCoordinate S N δ r' w' c' f' θ') (hw' : IsBumpWeights S N δ r' bump' w') (hb' : PositiveBump bump')
    {M M' : ℝ} (hM : FormBound S δ (2 * r) c f M) (hM' : FormBound S δ (2 * r') c' f' M')
    {ℓ : F → ℕ} (hball : s.InBalls S N δ r ℓ) (hball' : s.InBalls S N δ r' ℓ) {b : ℕ → ℕ} (hch : ChosenLandmarks S N δ r b)
    (hch' : ChosenLandmarks S N δ r' b) (hs : s.ShortEdges S w M) (hs' : s.ShortEdges S w' M') :
    (∃ X, s.Unrolls θ X) ∧ (∃ Y, s.Unrolls θ' Y) ∧
      ∃ n : ℤ, 2 * n = s.cup c c' ℓ b ∧ ∀ X Y, s.Unrolls θ X → s.Unrolls θ' Y → s.signedArea X Y = (2 * π) ^ 2 * n := by
  have u1 := h.unroll hw hb hnn htri hM hball hs
  have u2 := h'.unroll hw' hb' hnn htri hM' hball' hs'
  refine ⟨⟨_, u1⟩, ⟨_, u2⟩, ?_⟩
  obtain ⟨t1, t2, t3⟩ := h.on_surface hball hch
  obtain ⟨t1', t2', t3'⟩ := h'.on_surface hball' hch'
  obtain ⟨n, hn⟩ := t1.even t1'
  have hcup : 2 * n = s.cup c c' ℓ b := by
    rw [hn]
    unfold DataSurface.cup wedge
    refine sum_congr rfl fun d _ => ?_
    rw [t3 d, t3' d]
    ring
  refine ⟨n, hcup, ?_⟩
  intro X Y hX hY
  obtain ⟨t, e1, e2⟩ := unrolls_shift u1 hX
  obtain ⟨t', e1', e2'⟩ := unrolls_shift u2 hY
  rw [area_shift e1 e1' e2 e2']
  have hA := t1.area t1' t2 t2' (fun d => by rw [s.rot_start]) (fun d => by rw [s.rot_start])
  rw [← hn] at hA
  have : s.signedArea (fun d => 2 * π * ∑ v ∈ S, (f v + c (ℓ (s.face d)) v) * w v (s.start d))
      (fun d => 2 * π * ∑ v ∈ S, (f' v + c' (ℓ (s.face d)) v) * w' v (s.start d)) = (2 * π) ^ 2 *
      s.signedArea (fun d => ∑ v ∈ S, (f v + c (ℓ (s.face d)) v) * w v (s.start d))
      (fun d => ∑ v ∈ S, (f' v + c' (ℓ (s.face d)) v) * w' v (s.start d)) := by
    unfold DataSurface.signedArea
    rw [mul_sum]
    exact sum_congr rfl fun d _ => by ring
  rw [this, hA]
  push_cast
  ring

end Dreimac
