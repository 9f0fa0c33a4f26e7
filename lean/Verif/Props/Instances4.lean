import Verif.Props.Instances3

/-!
# Worked instances, fourth part: projections, metrics, samples, dimension reduction
-/

namespace Dreimac

open Real

/-! ### projections -/

/-- C64: two unit vectors on one Hopf fibre. -/
example : hopfMap (((3 / 5 : ℝ) : ℂ), ((4 / 5 : ℝ) : ℂ)) = hopfMap (Complex.I * ((3 / 5 : ℝ) : ℂ), Complex.I * ((4 / 5 : ℝ) : ℂ)) ∧
    hopfMap (((3 / 5 : ℝ) : ℂ), ((4 / 5 : ℝ) : ℂ)) ≠ hopfMap (((4 / 5 : ℝ) : ℂ), ((3 / 5 : ℝ) : ℂ)) := by
  have h1 : ‖((3 / 5 : ℝ) : ℂ)‖ ^ 2 + ‖((4 / 5 : ℝ) : ℂ)‖ ^ 2 = 1 := by
    rw [Complex.norm_real, Complex.norm_real]; norm_num
  have h2 : ‖Complex.I * ((3 / 5 : ℝ) : ℂ)‖ ^ 2 + ‖Complex.I * ((4 / 5 : ℝ) : ℂ)‖ ^ 2 = 1 := by
    rw [norm_mul, norm_mul, Complex.norm_I, one_mul, one_mul]; exact h1
  refine ⟨(C64_hopf _ _ h1 h2).2.2 ⟨Complex.I, Complex.norm_I, rfl, rfl⟩, fun h => ?_⟩
  obtain ⟨z, hz, e, -⟩ := (C64_hopf _ _ h1 (by rw [add_comm]; exact h1)).2.1 h
  have := congrArg norm e
  simp only [norm_mul, hz, Complex.norm_real] at this
  norm_num at this

/-- C65: the opposite of the last coordinate vector. -/
example : ¬ EqVec 3 (mulV 3 (rotmat 3 (fun k => - lastVec 3 k) (some (lastVec 3))) (direction 3 fun k => - lastVec 3 k))
    (direction 3 (lastVec 3)) :=
  (C65_opposite_wrong 3 (by norm_num) (lastVec 3) (lastVec_nonzero (by norm_num))).2

/-- C65: two vectors in the same half space. -/
example : √(dotP 2 (fun k => mulV 2 (rotmat 2 (fun k => if k = 0 then 1 else 2) (some (lastVec 2)))
      (direction 2 (fun k => if k = 0 then 1 else 2)) k - direction 2 (lastVec 2) k)
    (fun k => mulV 2 (rotmat 2 (fun k => if k = 0 then 1 else 2) (some (lastVec 2)))
      (direction 2 (fun k => if k = 0 then 1 else 2)) k - direction 2 (lastVec 2) k)) ≤ 2 / 10 ^ 15 :=
  C65_nearly_parallel 2 (by norm_num) (fun k => if k = 0 then 1 else 2) (lastVec 2) ⟨0, by norm_num, by norm_num⟩
    (lastVec_nonzero (by norm_num)) (by norm_num [dotP, Finset.sum_range_succ, lastVec]) _ fun _ => rfl

/-- C66: three points on the sphere, the default pole is the north pole; opposite points off the equator have the same image. -/
example (eigh : (ℕ → ℕ → ℝ) → ℕ → ℕ → ℝ) : ∃ w, IsPole 3 (lastVec 3) w ∧ (dotP 3 w (fun k => if k = 2 then 1 else 0) ≠ 0 →
    EqVec 2 (getStereoProjCodim1 eigh 2 3 (fun n k => if k = 2 then (-1) ^ n else 0) (some (lastVec 3)) 0)
      (getStereoProjCodim1 eigh 2 3 (fun n k => if k = 2 then (-1) ^ n else 0) (some (lastVec 3)) 1)) := by
  obtain ⟨w, h1, -, -, h2⟩ := C66_stereo eigh 2 3 (by norm_num) (fun n k => if k = 2 then (-1) ^ n else 0) (some (lastVec 3))
    (lastVec 3) rfl (lastVec_nonzero (by norm_num))
  refine ⟨w, h1, fun h => (h2 0 1 ?_).1 (by simpa using h)⟩
  intro k _
  by_cases hk : k = 2 <;> simp [hk]

/-- C67: the default centre. -/
example : ∃ w, IsPole 3 (lastVec 3) w ∧ ∀ x y, UnitVec 3 x → UnitVec 3 y →
    EqVec 2 (stereographicProjectionHemispheres 3 none x) (stereographicProjectionHemispheres 3 none y) → EqVec 3 x y := by
  obtain ⟨w, h1, -, -, -, h2⟩ := C67_hemispheres 3 (by norm_num) none (lastVec_nonzero (by norm_num))
  exact ⟨w, h1, h2⟩

/-- C68: a vector and its multiple by a square root of unity have the same image; a vector with first coordinate 0 does not. -/
example : pointLensToSphere 2 (((3 / 5 : ℝ) : ℂ), ((4 / 5 : ℝ) : ℂ)) = pointLensToSphere 2 (-1 * ((3 / 5 : ℝ) : ℂ), -1 * ((4 / 5 : ℝ) : ℂ)) ∧
    pointLensToSphere 2 (-1 * 0, -1 * 1) ≠ pointLensToSphere 2 (0, 1) := by
  have h1 : ‖((3 / 5 : ℝ) : ℂ)‖ ^ 2 + ‖((4 / 5 : ℝ) : ℂ)‖ ^ 2 = 1 := by
    rw [Complex.norm_real, Complex.norm_real]; norm_num
  have h2 : ‖(-1 : ℂ) * ((3 / 5 : ℝ) : ℂ)‖ ^ 2 + ‖(-1 : ℂ) * ((4 / 5 : ℝ) : ℂ)‖ ^ 2 = 1 := by
    rw [norm_mul, norm_mul, norm_neg, norm_one, one_mul, one_mul]; exact h1
  exact ⟨(C68_lens_iff_partial 2 (by norm_num) _ _ h1 h2 (by norm_num)).2 ⟨-1, by norm_num, rfl, rfl⟩,
    (C68_not_invariant 2 (by norm_num) 1 (by simp)).2 (-1) (by norm_num) (by norm_num)⟩

/-- C68: the image lies in the unit ball. -/
example : ∀ v ∈ lens3DToDisk3D 3 2 (fun i => if i = 0 then (1, 0) else (0, Complex.I)), v.1 ^ 2 + v.2.1 ^ 2 + v.2.2 ^ 2 ≤ 1 :=
  (C68_in_ball 3 (by norm_num) 2 (fun i => if i = 0 then (1, 0) else (0, Complex.I)) (by
    intro i _
    by_cases h : i = 0 <;> simp [h])).2

/-- C69: a point outside the disk is moved to its boundary. -/
example : (circleTo3dNorthpole (3, 4)).1 = (3 / 5, 4 / 5) := by
  have h := (C69_northpole (3, 4)).2.1 (by norm_num)
  have e : √((3 : ℝ) ^ 2 + 4 ^ 2) = 5 := by
    rw [show (3 : ℝ) ^ 2 + 4 ^ 2 = 5 ^ 2 by norm_num]; exact Real.sqrt_sq (by norm_num)
  rw [e] at h
  exact h.1

/-! ### metrics -/

/-- C70: a right triangle. -/
example : getCsm 2 1 (fun _ _ => 0) 1 (fun _ k => if k = 0 then 3 else 4) 0 0 = 5 := by
  rw [(C70_csm_euclidean 2 1 1 _ _ 0 0).1]
  norm_num [Finset.sum_range_succ]
  rw [show (25 : ℝ) = 5 ^ 2 by norm_num]; exact Real.sqrt_sq (by norm_num)

/-- C71: opposite unit vectors have distance 0. -/
example : getCsmProjarc 2 1 (fun _ k => if k = 0 then 3 / 5 else 4 / 5) 1 (fun _ k => if k = 0 then -(3 / 5) else -(4 / 5)) 0 0 = 0 := by
  refine (C71_projarc_metric 2 1 1 1 (fun _ k => if k = 0 then 3 / 5 else 4 / 5) (fun _ k => if k = 0 then -(3 / 5) else -(4 / 5))
    (fun _ k => if k = 0 then 1 else 0) 0 0 0 ?_ ?_ ?_).2.2.2.1.2 (Or.inr fun l _ => ?_)
  · norm_num [Finset.sum_range_succ]
  · norm_num [Finset.sum_range_succ]
  · norm_num [Finset.sum_range_succ]
  · by_cases h : l = 0 <;> simp [h]

/-- C71: two draws on the projective plane. -/
example : (rp2Metric 2 (fun i k => if i = k then 1 else 0)).2 0 1 = (rp2Metric 2 (fun i k => if i = k then 1 else 0)).2 1 0 :=
  (C71_rp2_metric 2 (fun i k => if i = k then 1 else 0) (fun i hi => ⟨i, by omega, by simp⟩) 0 1 0 (by norm_num) (by norm_num)
    (by norm_num)).2.2.2.2.1

/-! ### landmarks -/

/-- C72, C74: three points on a line. -/
example : ∃ res, getGreedyPermDm 3 3 (fun (i j : ℕ) => |(i : ℚ) - (j : ℚ)|) 3 = .ok res ∧
    FarthestPointSample (fun (i j : ℕ) => |(i : ℚ) - (j : ℚ)|) 3 3 res.perm res.lambdas ∧ DistinctUpTo 3 res.perm := by
  obtain ⟨res, h1, h2, -⟩ := C72_greedy_dm 3 (by norm_num) (fun (i j : ℕ) => |(i : ℚ) - (j : ℚ)|) 3 (by norm_num)
  obtain ⟨res', h1', h2'⟩ := C74_distinct_partial 3 (fun (i j : ℕ) => |(i : ℚ) - (j : ℚ)|) 3 (by norm_num) le_rfl
    (fun i _ => by simp) (fun i _ j _ hij => abs_pos.2 (sub_ne_zero.2 (by exact_mod_cast hij)))
  rw [h1] at h1'
  injection h1' with e
  subst e
  exact ⟨res, h1, h2, h2'⟩

/-- C72: in a point cloud; C75: the same landmarks as from its distance matrix. -/
example : ∃ a b, getGreedyPermPc (getCsm 1) 3 (fun (i : ℕ) _ => (i : ℝ)) 2 = .ok a ∧
    getGreedyPermDm 3 3 (getCsm 1 3 (fun (i : ℕ) _ => (i : ℝ)) 3 (fun (i : ℕ) _ => (i : ℝ))) 2 = .ok b ∧ a.perm 1 = b.perm 1 ∧
    FarthestPointSample (fun i j => getCsm 1 1 (fun _ _ => (i : ℝ)) 3 (fun (i : ℕ) _ => (i : ℝ)) 0 j) 3 2 a.perm a.lambdas := by
  obtain ⟨a, b, h1, h2, h3⟩ := C75_pc_eq_dm_library 1 (getCsm 1) (Or.inl rfl) 3 (by norm_num) (fun (i : ℕ) _ => (i : ℝ)) 2
    (by norm_num)
  obtain ⟨a', h1', h4, -⟩ := C72_greedy_pc (getCsm 1) 3 (by norm_num) (fun (i : ℕ) _ => (i : ℝ)) 2 (by norm_num)
  rw [h1] at h1'
  injection h1' with e
  subst e
  exact ⟨a, b, h1, h2, (h3 1 (by norm_num)).1, h4⟩

/-- C73: the points 0, 1, 2 of the line, one landmark. -/
example : ∃ res, getGreedyPermDm 3 3 (fun (i j : ℕ) => dist (i : ℝ) (j : ℝ)) 1 = .ok res ∧
    ∀ x < 3, ∃ j < 1, dist ((x : ℕ) : ℝ) (res.perm j : ℝ) ≤ 2 * 1 := by
  refine C73_two_approximation 3 (by norm_num) (fun (i : ℕ) => (i : ℝ)) 1 (by norm_num) (fun _ => 1) 1 ?_
  intro x hx
  refine ⟨0, ?_⟩
  rw [Real.dist_eq]
  have h1 : (0 : ℝ) ≤ x := Nat.cast_nonneg x
  have h2 : (x : ℝ) ≤ 2 := by exact_mod_cast (by omega : x ≤ 2)
  rw [abs_le]
  constructor <;> linarith

/-- C74: two points at distance 0 and one elsewhere: two landmarks are distinct, three are not. -/
example (p : ℕ → ℕ) (lam : ℕ → ℚ) (h : FarthestPointSample (fun (i j : ℕ) => if (i = 2) ↔ (j = 2) then (0 : ℚ) else 1) 3 3 p lam) :
    ¬ DistinctUpTo 3 p := by
  intro hd
  obtain ⟨q, h1, h2⟩ := (C74_distinct_iff h (fun i _ j _ => by split <;> norm_num) (fun i _ => by simp)
    (fun i _ j _ hij => by
      by_cases e : (i = 2) ↔ (j = 2)
      · rw [if_pos e.symm]
      · rw [if_neg e] at hij; norm_num at hij)
    (fun i _ j _ k _ hij hjk => by
      by_cases e : (i = 2) ↔ (j = 2)
      · by_cases e' : (j = 2) ↔ (k = 2)
        · rw [if_pos (e.trans e')]
        · rw [if_neg e'] at hjk; norm_num at hjk
      · rw [if_neg e] at hij; norm_num at hij)).1 hd
  have h01 := h2 0 (by norm_num) 1 (by norm_num) (by norm_num)
  have h02 := h2 0 (by norm_num) 2 (by norm_num) (by norm_num)
  have h12 := h2 1 (by norm_num) 2 (by norm_num) (by norm_num)
  have e01 : ¬ (q 0 = 2 ↔ q 1 = 2) := fun e => by rw [if_pos e] at h01; exact lt_irrefl _ h01
  have e02 : ¬ (q 0 = 2 ↔ q 2 = 2) := fun e => by rw [if_pos e] at h02; exact lt_irrefl _ h02
  have e12 : ¬ (q 1 = 2 ↔ q 2 = 2) := fun e => by rw [if_pos e] at h12; exact lt_irrefl _ h12
  tauto

/-- C76: four points on a line. -/
example : ∃ dist permAll, landmarkGeodesicDistance 4 (fun (i j : ℕ) => |(i : ℚ) - (j : ℚ)|) 2 1 = .ok (dist, permAll) ∧
    permAll.Perm (List.range 4) :=
  C76_geodesic_distinct_points_partial 4 (fun (i j : ℕ) => |(i : ℚ) - (j : ℚ)|) 2 1 (by norm_num) (by norm_num) (by norm_num)
    (by norm_num) (fun i _ => by simp) (fun i _ j _ hij => abs_pos.2 (sub_ne_zero.2 (by exact_mod_cast hij)))

/-- C76: two points at distance 0. -/
example (dist : ℕ → ℕ → ℚ) (permAll : List ℕ) (he : landmarkGeodesicDistance 2 (fun _ _ => (0 : ℚ)) 2 1 = .ok (dist, permAll))
    (h : ¬ DistinctUpTo 2 (fun i => permAll.getD i 0)) : 2 < permAll.length :=
  (C76_duplicates 2 _ 2 1 (by norm_num) le_rfl (by norm_num) (by norm_num) he h).1

/-! ### samples -/

/-- C77: the torus and the Klein bottle with radii 2 and 1. -/
example (s t s' t' : ℝ) (hs : s ∈ Set.Ico (0 : ℝ) 1) (ht : t ∈ Set.Ico (0 : ℝ) 1) (hs' : s' ∈ Set.Ico (0 : ℝ) 1)
    (ht' : t' ∈ Set.Ico (0 : ℝ) 1) : (torus3d 2 1 s t = torus3d 2 1 s' t' → s = s' ∧ t = t') ∧
    (kleinBottle4d 2 1 s t = kleinBottle4d 2 1 s' t' → s = s' ∧ t = t') ∧ OnKleinBottle 2 1 (kleinBottle4d 2 1 s t) :=
  ⟨C77_torus_injective 2 1 s t s' t' (by norm_num) (by norm_num) hs ht hs' ht',
    C77_klein_injective 2 1 s t s' t' (by norm_num) (by norm_num) hs ht hs' ht', C77_klein 2 1 s t (by norm_num) (by norm_num)⟩

/-- C77: the point `(0, 3, 0)` is on the torus, so it is sampled by some pair of parameters. -/
example : ∃ s t, torus3d 2 1 s t = (0, 3, 0) := by
  refine C77_torus_surjective 2 1 (by norm_num) 0 3 0 ?_
  rw [show (0 : ℝ) ^ 2 + 3 ^ 2 = 3 ^ 2 by norm_num, Real.sqrt_sq (by norm_num)]
  norm_num

/-- C79: one draw outside the disk is dropped. -/
example : (∀ x ∈ (mooreSpace [![0, 0], ![1 / 2, 1]] 3).2, x 0 ^ 2 + x 1 ^ 2 ≤ 1) ∧
    (fun k => 2 * (![1 / 2, 1] : Fin 2 → ℝ) k - 1) ∈ (mooreSpace [![0, 0], ![1 / 2, 1]] 3).2 := by
  obtain ⟨h1, -, h2, -⟩ := C79_points_and_entries [![0, 0], ![1 / 2, 1]] 3 (by norm_num)
  exact ⟨h1, h2 _ (by simp) (by norm_num)⟩

/-- C86: draws of the circle, the sphere and the bullseye. -/
example : NearCircle (0, 0) 1 (1 / 2) (noisyCircle 1 (1 / 4, 3 / 4) (1 / 4, 3 / 4)) ∧
    NearCircle (0, 0) 2 0.05 (bullseye (fun _ => (1 / 4, 3 / 4)) 201) ∧
    NearCircle (4, 0) 2 0.15 (threeCircles (fun _ => (1 / 4, 3 / 4)) 60) := by
  have hu : UnitDraw (1 / 4, 3 / 4) := ⟨⟨by norm_num, by norm_num⟩, ⟨by norm_num, by norm_num⟩⟩
  refine ⟨?_, ?_, (C86_three_circles _ (fun _ => hu) 60 (by norm_num)).2.1 (by norm_num) (by norm_num)⟩
  · have := C86_noisy_circle 1 (by norm_num) (1 / 4, 3 / 4) (1 / 4, 3 / 4)
      (by intro h; have := congrArg Prod.fst h; norm_num at this) hu
    exact this
  · have := C86_bullseye (fun _ => (1 / 4, 3 / 4)) (fun _ => hu) 1 1 (by norm_num) (by norm_num)
    norm_num at this ⊢
    exact this

/-- C86: a draw of the sphere. -/
example : (sphereSample (1, 1 / 2, 1 / 2)).1 ^ 2 + (sphereSample (1, 1 / 2, 1 / 2)).2.1 ^ 2 +
    (sphereSample (1, 1 / 2, 1 / 2)).2.2 ^ 2 = 1 :=
  C86_sphere (1, 1 / 2, 1 / 2) (by intro h; have := congrArg Prod.fst h; norm_num at this)

/-- C86: the trefoil samples are distinct. -/
example : trefoilExact 1 5 2 ≠ trefoilExact 1 5 3 := fun h => by
  have := (C86_trefoil_exact 1 one_pos 5).2 2 (by norm_num) 3 (by norm_num) h
  norm_num at this

/-- C87: the mesh of the sphere. -/
example : sphereMesh 10 20 0 4 = sphereMesh 10 20 19 4 := (C87_mesh 10 20 (by norm_num) (by norm_num) 0 4).2.1

/-! ### dimension reduction -/

/-- C53, C55–C58 on `basisData`. -/
example (eigh : Eigh ℝ) : ppca eigh 5 basisData 0 .oneByOne = .error .attributeError ∧
    (∃ R, ppca eigh 5 basisData 3 .exponential = .ok R ∧ R.X = basisData) ∧
    ppca eigh 5 basisData 1 .exponential ≠ .error .outOfFuel ∧
    (∀ R, ppca eigh 5 basisData 1 .direct = .ok R → R.variance = [some 0, some 0]) ∧
    ppca eigh 5 basisData (4 : ℕ) .oneByOne = .error .attributeError :=
  ⟨C55_one_by_one_zero eigh basisData (by decide) 5, C58_no_reduction_partial eigh 5 basisData (by decide) 3 (by decide),
    C56_terminates eigh basisData 1 .exponential 5 (by decide),
    fun R h => C57_zero_variance eigh 5 basisData 1 .direct (Or.inl rfl) R h,
    (C55_too_few_columns eigh basisData (by decide) 4 (by decide) 5).2.2⟩

end Dreimac
