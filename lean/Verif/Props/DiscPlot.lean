import Verif.Spec.DiscPlot
import Verif.Props.ProjUtils
import Verif.Props.Reduced

/-!
# C138: the plot of projective coordinates in the disc sees the class
-/

namespace Dreimac

theorem RotIso.inner {d : ℕ} {R : ℕ → ℕ → ℝ} (hR : RotIso d R) (x y : ℕ → ℝ) :
    dotP d (mulV d R x) (mulV d R y) = dotP d x y := by
  have h1 := hR.iso fun k => x k + y k
  have hadd : ∀ a b : ℕ → ℝ, dotP d (fun k => a k + b k) (fun k => a k + b k) = dotP d a a + 2 * dotP d a b + dotP d b b := by
    intro a b
    unfold dotP
    rw [Finset.mul_sum, ← Finset.sum_add_distrib, ← Finset.sum_add_distrib]
    exact Finset.sum_congr rfl fun k _ => by ring
  have hlin : mulV d R (fun k => x k + y k) = fun k => mulV d R x k + mulV d R y k := by
    funext i
    unfold mulV dotP
    rw [← Finset.sum_add_distrib]
    exact Finset.sum_congr rfl fun k _ => by ring
  rw [hlin, hadd, hadd, hR.iso x, hR.iso y] at h1
  linarith

/-- The sign with which a vector is moved to the upper hemisphere. -/
noncomputable def upSign (d : ℕ) (R : ℕ → ℕ → ℝ) (x : ℕ → ℝ) : ℝ := if mulV d R x (d - 1) < 0 then -1 else 1

theorem upSign_sq (d : ℕ) (R : ℕ → ℕ → ℝ) (x : ℕ → ℝ) : upSign d R x * upSign d R x = 1 := by
  unfold upSign; split <;> norm_num

theorem upSign_abs (d : ℕ) (R : ℕ → ℕ → ℝ) (x : ℕ → ℝ) : |upSign d R x| = 1 := by
  unfold upSign; split <;> norm_num

theorem upSign_last (d : ℕ) (R : ℕ → ℕ → ℝ) (x : ℕ → ℝ) :
    |mulV d R x (d - 1)| = upSign d R x * mulV d R x (d - 1) := by
  unfold upSign
  split
  · next h => rw [abs_of_neg h]; ring
  · next h => rw [abs_of_nonneg (not_lt.1 h)]; ring

theorem discPairing_image {q : ℕ} {R : ℕ → ℕ → ℝ} (hR : RotIso (q + 1) R) {x y : ℕ → ℝ} (hx : UnitVec (q + 1) x)
    (hy : UnitVec (q + 1) y) :
    discPairing q (stereoImage (q + 1) R x) (stereoImage (q + 1) R y) =
      (1 + dotP q (stereoImage (q + 1) R x) (stereoImage (q + 1) R x)) *
      (1 + dotP q (stereoImage (q + 1) R y) (stereoImage (q + 1) R y)) *
      (upSign (q + 1) R x * upSign (q + 1) R y * dotP (q + 1) x y) := by
  have hsx := stereo_sum (Nat.succ_pos q) hR hx
  have hsy := stereo_sum (Nat.succ_pos q) hR hy
  simp only [Nat.succ_eq_add_one, Nat.add_sub_cancel] at hsx hsy
  have sq : ∀ P : ℕ → ℝ, dotP q P P = ∑ i ∈ Finset.range q, P i ^ 2 := fun P => by
    unfold dotP; exact Finset.sum_congr rfl fun k _ => by ring
  have hlx := upSign_last (q + 1) R x
  have hly := upSign_last (q + 1) R y
  simp only [Nat.add_sub_cancel] at hlx hly
  have hin := hR.inner x y
  have hsplit : dotP (q + 1) (mulV (q + 1) R x) (mulV (q + 1) R y) =
      dotP q (mulV (q + 1) R x) (mulV (q + 1) R y) + mulV (q + 1) R x q * mulV (q + 1) R y q := by
    unfold dotP; rw [Finset.sum_range_succ]
  have hpair : dotP q (stereoImage (q + 1) R x) (stereoImage (q + 1) R y) =
      upSign (q + 1) R x * upSign (q + 1) R y * dotP q (mulV (q + 1) R x) (mulV (q + 1) R y) /
        ((1 + |mulV (q + 1) R x q|) * (1 + |mulV (q + 1) R y q|)) := by
    unfold dotP
    rw [Finset.mul_sum, Finset.sum_div]
    refine Finset.sum_congr rfl fun k _ => ?_
    have e : ∀ z : ℕ → ℝ, stereoImage (q + 1) R z k = upSign (q + 1) R z * mulV (q + 1) R z k / (1 + |mulV (q + 1) R z q|) :=
      fun z => rfl
    rw [e, e, div_mul_div_comm]
    ring
  unfold discPairing
  rw [hpair, sq, sq, hsx, hsy, ← hin, hsplit]
  have hp : 0 < 1 + |mulV (q + 1) R x q| := by positivity
  have hp' : 0 < 1 + |mulV (q + 1) R y q| := by positivity
  have hprod : |mulV (q + 1) R x q| * |mulV (q + 1) R y q| =
      upSign (q + 1) R x * upSign (q + 1) R y * (mulV (q + 1) R x q * mulV (q + 1) R y q) := by
    rw [hlx, hly]; ring
  generalize |mulV (q + 1) R x q| = A at *
  generalize |mulV (q + 1) R y q| = B at *
  have e1 : (1 : ℝ) - (1 - A) / (1 + A) = 2 * A / (1 + A) := by field_simp; ring
  have e2 : (1 : ℝ) - (1 - B) / (1 + B) = 2 * B / (1 + B) := by field_simp; ring
  have e3 : (1 : ℝ) + (1 - A) / (1 + A) = 2 / (1 + A) := by field_simp; ring
  have e4 : (1 : ℝ) + (1 - B) / (1 + B) = 2 / (1 + B) := by field_simp; ring
  rw [e1, e2, e3, e4, mul_add (upSign (q + 1) R x * upSign (q + 1) R y), ← hprod]
  field_simp
  ring

theorem rotIso_north {q : ℕ} {u : ℕ → ℝ} (hu : NonzeroVec (q + 1) u) : RotIso (q + 1) (rotmat (q + 1) u none) :=
  rotmat_iso (Nat.succ_pos q) hu (lastVec_nonzero (Nat.succ_pos q))

section
variable (eigh : (ℕ → ℕ → ℝ) → ℕ → ℕ → ℝ) (N q : ℕ) (pX : ℕ → ℕ → ℝ) (u : Option (ℕ → ℝ))

/-- The plot determines the lines up to a rotation: the angle between two of them can be read off. -/
theorem C138_disc_angle (hu : NonzeroVec (q + 1) (u.getD fun i => eigh (fun i j => ∑ n ∈ Finset.range N, pX n i * pX n j) i 0))
    (n m : ℕ) (hn : UnitVec (q + 1) (pX n)) (hm : UnitVec (q + 1) (pX m)) :
    |discPairing q (getStereoProjCodim1 eigh N (q + 1) pX u n) (getStereoProjCodim1 eigh N (q + 1) pX u m)| =
      (1 + dotP q (getStereoProjCodim1 eigh N (q + 1) pX u n) (getStereoProjCodim1 eigh N (q + 1) pX u n)) *
      (1 + dotP q (getStereoProjCodim1 eigh N (q + 1) pX u m) (getStereoProjCodim1 eigh N (q + 1) pX u m)) *
      |dotP (q + 1) (pX n) (pX m)| := by
  have hR := rotIso_north hu
  have e : ∀ n, getStereoProjCodim1 eigh N (q + 1) pX u n = stereoImage (q + 1) (rotmat (q + 1) (u.getD fun i =>
      eigh (fun i j => ∑ n ∈ Finset.range N, pX n i * pX n j) i 0) none) (pX n) := fun n => funext fun i => getStereo_eq _ _ _ _ _ _ _
  simp only [e]
  rw [discPairing_image hR hn hm, abs_mul, abs_mul (upSign _ _ _ * upSign _ _ _), abs_mul (upSign _ _ _), upSign_abs, upSign_abs]
  have nn : ∀ P : ℕ → ℝ, 0 ≤ dotP q P P := fun P => Finset.sum_nonneg fun k _ => mul_self_nonneg _
  rw [abs_of_nonneg (mul_nonneg (by linarith [nn (stereoImage (q + 1) (rotmat (q + 1) (u.getD fun i =>
      eigh (fun i j => ∑ n ∈ Finset.range N, pX n i * pX n j) i 0) none) (pX n))]) (by linarith [nn (stereoImage (q + 1) (rotmat (q + 1) (u.getD fun i =>
      eigh (fun i j => ∑ n ∈ Finset.range N, pX n i * pX n j) i 0) none) (pX m))]))]
  ring

/-- Along a closed sequence of unit vectors the product of the pairings of consecutive points of the plot is a positive multiple of the
product of the inner products of consecutive vectors. -/
theorem C138_disc_loop (hu : NonzeroVec (q + 1) (u.getD fun i => eigh (fun i j => ∑ n ∈ Finset.range N, pX n i * pX n j) i 0))
    (n : ℕ) (i : ℕ → ℕ) (hclosed : i n = i 0) (hunit : ∀ t ≤ n, UnitVec (q + 1) (pX (i t))) :
    ∃ c : ℝ, 0 < c ∧
      ∏ t ∈ Finset.range n, discPairing q (getStereoProjCodim1 eigh N (q + 1) pX u (i t)) (getStereoProjCodim1 eigh N (q + 1) pX u (i (t + 1))) =
        c * ∏ t ∈ Finset.range n, dotP (q + 1) (pX (i t)) (pX (i (t + 1))) := by
  have hR := rotIso_north hu
  have e : ∀ n, getStereoProjCodim1 eigh N (q + 1) pX u n = stereoImage (q + 1) (rotmat (q + 1) (u.getD fun i =>
      eigh (fun i j => ∑ n ∈ Finset.range N, pX n i * pX n j) i 0) none) (pX n) := fun n => funext fun i => getStereo_eq _ _ _ _ _ _ _
  simp only [e]
  generalize rotmat (q + 1) (u.getD fun i => eigh (fun i j => ∑ n ∈ Finset.range N, pX n i * pX n j) i 0) none = R at hR
  have nn : ∀ P : ℕ → ℝ, 0 ≤ dotP q P P := fun P => Finset.sum_nonneg fun k _ => mul_self_nonneg _
  refine ⟨∏ t ∈ Finset.range n, ((1 + dotP q (stereoImage (q + 1) R (pX (i t))) (stereoImage (q + 1) R (pX (i t)))) *
      (1 + dotP q (stereoImage (q + 1) R (pX (i (t + 1)))) (stereoImage (q + 1) R (pX (i (t + 1)))))),
    Finset.prod_pos fun t _ => mul_pos (by linarith [nn (stereoImage (q + 1) R (pX (i t)))])
      (by linarith [nn (stereoImage (q + 1) R (pX (i (t + 1))))]), ?_⟩
  have hsign : ∏ t ∈ Finset.range n, (upSign (q + 1) R (pX (i t)) * upSign (q + 1) R (pX (i (t + 1)))) = 1 := by
    have tel : ∀ k, ∏ t ∈ Finset.range k, (upSign (q + 1) R (pX (i t)) * upSign (q + 1) R (pX (i (t + 1)))) =
        upSign (q + 1) R (pX (i 0)) * upSign (q + 1) R (pX (i k)) := by
      intro k
      induction k with
      | zero => rw [upSign_sq]; rfl
      | succ k ih =>
        rw [Finset.prod_range_succ, ih]
        have := upSign_sq (q + 1) R (pX (i k))
        calc upSign (q + 1) R (pX (i 0)) * upSign (q + 1) R (pX (i k)) * (upSign (q + 1) R (pX (i k)) * upSign (q + 1) R (pX (i (k + 1))))
            = upSign (q + 1) R (pX (i 0)) * (upSign (q + 1) R (pX (i k)) * upSign (q + 1) R (pX (i k))) * upSign (q + 1) R (pX (i (k + 1))) := by ring
          _ = _ := by rw [this, mul_one]
    rw [tel, hclosed, upSign_sq]
  rw [Finset.prod_congr rfl fun t ht => discPairing_image hR (hunit t (Finset.mem_range.1 ht).le) (hunit (t + 1) (Finset.mem_range.1 ht)),
    Finset.prod_mul_distrib, Finset.prod_mul_distrib (f := fun t => upSign (q + 1) R (pX (i t)) * upSign (q + 1) R (pX (i (t + 1)))),
    hsign, one_mul]

end

section
variable {ρ : ℝ → ℝ} {k maxdim : ℕ} {δ : ℕ → ℕ → ℝ} {res : RipserResult ℝ}

/-- **C138.** `ProjectiveCoords` with any `proj_dim = q`, followed by `get_stereo_proj_codim1` with any non-zero pole (or the
eigenvector it chooses): under the condition of C130 on the lost parts, along every closed path of data points with consecutive points
in the ball of a landmark the product of the pairings of consecutive points of the plot is positive if the class has an even value on
the path of landmarks and negative if the value is odd; and the absolute value of the pairing of two points of the plot determines the
angle between the lines. -/
theorem C138_projective_plot (x : DataInput) (hx : DescribesData x δ) (hr : RipserSpec ρ x.rows k δ 2 maxdim res)
    (argsort : List (Fl ℝ) → List ℕ) (ha : ArgsortSpec argsort) (hm : 1 ≤ maxdim) (hk : 2 ≤ k)
    (hf : x.distanceMatrix = true → x.dtype = .float) :
    ∃ o dgm coc σ, projInit argsort res x maxdim = .ok o ∧ res.dgms[1]? = some dgm ∧ res.cocycles[1]? = some coc ∧
      PersistenceRanking dgm σ ∧
      ∀ (z j : ℕ) (b d : ℝ) (c₀ : List ZRow), σ[z]? = some j → dgm[j]? = some (.fin b, .fin d) → coc[j]? = some c₀ →
      ∃ ξ, ListsCochain c₀ ξ ∧
      ∀ (eigh : Eigh ℝ) (fuel : ℕ) (history : List ProjArgs) (perc : ℝ) (std check : Bool) (bump : Fl ℝ → Fl ℝ → Fl ℝ)
        (mode : RedMode) (q : ℕ), EighSpec eigh → k ≤ fuel → (if std then 2 * b else b) ≤ d → PositiveBump bump →
        mode ≠ .other → 1 ≤ q → q < k →
      ∀ r : ℝ, 2 * r = (1 - perc) * (if std then 2 * b else b) + perc * d → BelowDeath ρ (2 * r) d →
      (∀ i < x.nPoints, ∃ u ∈ res.idxPerm, δ u i < r) →
      ∃ (X : Arr ℝ) (w : ℕ → ℕ → ℝ) (β : ℕ → ℕ), (projGetCoordinates eigh fuel (projHistory eigh fuel o history)
          ⟨.fin perc, .int z, q, bump, std, check, mode⟩).2 = .ok X ∧ X.rows = x.nPoints ∧ X.cols = q + 1 ∧
        IsBumpWeights res.idxPerm.toFinset x.nPoints δ r bump w ∧ (∀ i < x.nPoints, β i ∈ res.idxPerm ∧ δ (β i) i < r) ∧
        ∀ y : ℕ → ℕ → ℝ, (∀ i < x.nPoints, ∀ m < q + 1, X.at' i m = some (y i m)) →
        ∃ v s, IsNormalizedProjection (q + 1) k x.nPoints v (fun i m => signVector ξ w (β i) i (res.idxPerm.getD m 0)) y s ∧
          ∀ (eigh' : (ℕ → ℕ → ℝ) → ℕ → ℕ → ℝ) (pole : Option (ℕ → ℝ)),
          NonzeroVec (q + 1) (pole.getD fun i => eigh' (fun i j => ∑ n ∈ Finset.range x.nPoints, y n i * y n j) i 0) →
          let P := getStereoProjCodim1 eigh' x.nPoints (q + 1) y pole
          (∀ n < x.nPoints, ∀ m < x.nPoints, |discPairing q (P n) (P m)| =
            (1 + dotP q (P n) (P n)) * (1 + dotP q (P m) (P m)) * |∑ l ∈ Finset.range (q + 1), y n l * y m l|) ∧
          ∀ (n : ℕ) (i l : ℕ → ℕ), DataLoop res.idxPerm.toFinset x.nPoints δ r n i l →
          (∀ q < n, lost (s (i q)) * lost (s (i (q + 1))) < dataOverlap res.idxPerm.toFinset w (i q) (i (q + 1))) →
          (Even (pathValue ξ n l) → 0 < ∏ t ∈ Finset.range n, discPairing q (P (i t)) (P (i (t + 1)))) ∧
          (Odd (pathValue ξ n l) → ∏ t ∈ Finset.range n, discPairing q (P (i t)) (P (i (t + 1))) < 0) := by
  obtain ⟨o, dgm, coc, σ, h1, h2, h3, h4, h5⟩ := C130_projective_reduced x hx hr argsort ha hm hk hf
  refine ⟨o, dgm, coc, σ, h1, h2, h3, h4, ?_⟩
  intro z j b d c₀ hz hpt hc₀
  obtain ⟨ξ, hξ, h6⟩ := h5 z j b d c₀ hz hpt hc₀
  refine ⟨ξ, hξ, ?_⟩
  intro eigh fuel history perc std check bump mode q he hfuel hstart hb hmode hq hq' r hr2 hbel hall
  obtain ⟨X, w, β, e1, e2, e3, e4, e5, e6⟩ := h6 eigh fuel history perc std check bump mode q he hfuel hstart hb hmode hq hq' r hr2
    hbel hall
  refine ⟨X, w, β, e1, e2, e3, e4, e5, fun y hy => ?_⟩
  obtain ⟨v, s, g1, -, g2⟩ := e6 y hy
  refine ⟨v, s, g1, fun eigh' pole hpole => ?_⟩
  have hunit : ∀ i < x.nPoints, UnitVec (q + 1) (y i) := by
    intro i hi
    have := g1.unit i hi
    unfold UnitVec dotP
    rw [← this]
    exact Finset.sum_congr rfl fun l _ => by rw [Real.norm_eq_abs, sq_abs]; ring
  refine ⟨fun n hn m hm => C138_disc_angle eigh' x.nPoints q y pole hpole n m (hunit n hn) (hunit m hm), fun n i l hl hlost => ?_⟩
  have hin : ∀ t ≤ n, i t < x.nPoints := by
    intro t ht
    rcases ht.lt_or_eq with h | rfl
    · exact hl.data t h
    · rw [hl.closed_data]; exact hl.data 0 hl.pos
  obtain ⟨c, hc, hprod⟩ := C138_disc_loop eigh' x.nPoints q y pole hpole n i hl.closed_data fun t ht => hunit _ (hin t ht)
  obtain ⟨k1, k2⟩ := g2 n i l hl hlost
  rw [hprod]
  exact ⟨fun h => mul_pos hc (k1 h), fun h => mul_neg_of_pos_of_neg hc (k2 h)⟩

end

end Dreimac
