import Verif.Lemmas.SparseIntegrateFloat
import Verif.Lemmas.Cech

/-!
# C115: circular coordinates in floating point arithmetic represent the cohomology class
-/

namespace Dreimac

open Fl

section
variable {K : Type} [Field K] [LinearOrder K] [IsStrictOrderedRing K] [FloorRing K]
variable {E : Type} [LinearOrder E]

/-- The chosen ball of a covered data point is the first one that contains it. -/
theorem coveringF_ball {rnd : K → Fl K} {order : SumTree} {L N : ℕ} {dist : ℕ → ℕ → K} {r : K} {bump : Fl K → Fl K → Fl K}
    {C : Covering K} (hC : getCoveringPartitionF rnd order L N (fun l i => fin (dist l i)) (fin r) bump = .ok C) (i : ℕ)
    {m : ℕ} (hm : m < L) (hd : dist m i < r) :
    C.ballIndx i < L ∧ dist (C.ballIndx i) i < r ∧ ∀ l, dist l i < r → C.ballIndx i ≤ l := by
  unfold getCoveringPartitionF at hC
  simp only [lt_fin] at hC
  split at hC
  · exact absurd hC (by simp)
  · injection hC with hC
    subst hC
    have hex : ∃ b, (List.range L).find? (fun l => decide (dist l i < r)) = some b := by
      rw [← Option.isSome_iff_exists, List.find?_isSome]
      exact ⟨m, List.mem_range.2 hm, by simpa using hd⟩
    obtain ⟨b, hb⟩ := hex
    have hball : ((List.range L).find? (fun l => decide (dist l i < r))).getD 0 = b := by rw [hb]; rfl
    simp only [hball]
    rw [List.find?_range_eq_some] at hb
    obtain ⟨h1, h2, h3⟩ := hb
    refine ⟨List.mem_range.1 h2, by simpa using h1, fun l hl => ?_⟩
    by_contra h
    have := h3 l (by omega)
    simp [hl] at this

/-- **C115.** In `float64` the circular coordinate `y` of a covered data point `i` is finite, lies between 0 and `tau`, and over the
ball of every landmark `l` that contains the point it is the lift `∑ (f m + c (l, m)) w m` of the class modulo a full turn, up to
`(20 L + 51) A 2⁻⁵³` turns.  Hypotheses: the weights do not overflow (`hbb`), the cocycle condition holds on the Rips complex
(`hc`), and landmarks whose balls share the point are joined by an edge. -/
theorem C115_class_in_floating_point (order order' : SumTree) (L N : ℕ) (hL : 0 < L) (hL' : L ≤ 65536)
    (ho : order.leaves.Perm (List.range L)) (ho' : order'.leaves.Perm (List.range L)) (dist : ℕ → ℕ → K)
    (hd : ∀ l i, 0 ≤ dist l i) (hm : ∀ l i, Machine float64 (dist l i)) (r : K) (bump : Fl K → Fl K → Fl K)
    (hb : FloatBump float64 bump r) (hbb : ∀ d v, 0 ≤ d → d < r → bump (fin d) (fin r) = fin v → v ≤ 2 ^ (900 : ℤ))
    (dll : ℕ → ℕ → E) (thr : E) (T D : ℕ) (hT : L ≤ T) (hD : 1 ≤ D) (c : ℕ → ℤ) (hc : IsCocycle1 L dll thr c)
    (f : ℕ → K) (mf : ∀ l, Machine float64 (f l)) (A : K) (hA : 1 ≤ A) (hA' : A ≤ 2 ^ (900 : ℤ))
    (hfA : ∀ l, |f l| ≤ A) (hcA : ∀ e, |(c e : K)| ≤ A) (tau : K) (ht : 1 ≤ tau) (ht' : tau ≤ 8) (mt : Machine float64 tau) :
    ∃ C delta0, getCoveringPartitionF float64 order L N (fun l i => fin (dist l i)) (fin r) bump = .ok C ∧
      makeDelta0 L dll thr (cnsTable T D) = .ok delta0 ∧
      ∀ i, (∃ l < L, C.varphi l i ≠ nan) →
        (∀ l m, l < m → m < L → dist l i < r → dist m i < r → dll l m < thr) →
        ∃ (y : K) (w : ℕ → K), (∀ l < L, C.varphi l i = fin (w l)) ∧
          sparseIntegrateF float64 tau order' (harmRepF float64 c delta0 fun l => fin (f l)) (fun l => fin (f l)) C L dll thr
            (cnsTable T D) i = fin y ∧ 0 ≤ y ∧ y ≤ tau ∧
          ∃ k : ℕ → ℤ, (∀ l m, l < L → m < L → dist l i < r → dist m i < r → k l - k m = edgeVal c l m) ∧
            ∀ l < L, dist l i < r →
              |y - tau * (∑ m ∈ Finset.range L, (f m + (edgeVal c l m : ℤ)) * w m - k l)| ≤
                (20 * L + 51) * A * 2 ^ (-53 : ℤ) * tau := by
  obtain ⟨C, hC, hsum⟩ := C96_float64_sum order L N hL (hL'.trans (by norm_num)) ho dist hd hm r bump hb hbb
  obtain ⟨C', hC', hwt⟩ := C96_weights_unit_interval rounding_float64 order L N hL
    (fun l hl => ho.mem_iff.2 (List.mem_range.2 hl)) dist hd hm r bump hb
  rw [hC] at hC'
  injection hC' with hC'
  subst hC'
  refine ⟨C, _, hC, makeDelta0_ok hT hD hL', fun i hi hnerve => ?_⟩
  rcases hwt i with h | h
  · obtain ⟨l, hl, hn⟩ := hi
    exact absurd (h l hl) hn
  have hex : ∀ l, ∃ w : K, l < L → C.varphi l i = fin w ∧ 0 ≤ w ∧ w ≤ 1 ∧ (r ≤ dist l i → w = 0) := by
    intro l
    by_cases hl : l < L
    · obtain ⟨w, hw⟩ := h l hl; exact ⟨w, fun _ => hw⟩
    · exact ⟨0, fun h => absurd h hl⟩
  choose w hw using hex
  have hs := hsum i hi
  have hsw : ∑ l ∈ Finset.range L, (C.varphi l i).toK = ∑ l ∈ Finset.range L, w l :=
    Finset.sum_congr rfl fun l hl => by rw [(hw l (Finset.mem_range.1 hl)).1]; rfl
  rw [hsw] at hs
  -- the constants
  have hLK : (L : K) ≤ 65536 := by exact_mod_cast hL'
  have hu0 : (0 : K) < 2 ^ (-53 : ℤ) := two_zpow_pos _
  have hu1 : 131074 * (2 : K) ^ (-53 : ℤ) ≤ 1 / 8 := by norm_num
  have he0 : (0 : K) ≤ 2 ^ (-1075 : ℤ) := (two_zpow_pos _).le
  have he1 : (L : K) * 2 ^ (-1075 : ℤ) ≤ 2 ^ (-53 : ℤ) := by
    calc (L : K) * 2 ^ (-1075 : ℤ) ≤ 2 ^ (16 : ℤ) * 2 ^ (-1075 : ℤ) :=
          mul_le_mul_of_nonneg_right (hLK.trans (by norm_num)) he0
      _ = 2 ^ (-1059 : ℤ) := by rw [← zpow_add₀ two_ne_zero]; norm_num
      _ ≤ 2 ^ (-53 : ℤ) := zpow_le_zpow_right₀ one_le_two (by norm_num)
  have hB : Machine (float64 (K := K)) (2 ^ (923 : ℤ)) :=
    machine_float64 1 923 (by rw [Int.cast_one, one_mul]) (by norm_num) (by norm_num) (by norm_num)
  have h923 : (8388608 : K) * 2 ^ (900 : ℤ) = 2 ^ (923 : ℤ) := by
    rw [show (8388608 : K) = 2 ^ (23 : ℤ) by norm_num, ← zpow_add₀ two_ne_zero]; norm_num
  have h52 : (2 : K) ^ (-52 : ℤ) = 2 * 2 ^ (-53 : ℤ) := by
    rw [show (-52 : ℤ) = 1 + -53 by norm_num, zpow_add₀ two_ne_zero, zpow_one]
  have Eb := errorBound_float64 (K := K)
  rw [h52] at hs
  have hL1 : (1 : K) ≤ L := by exact_mod_cast hL
  have hM : 16 * (L : K) * A * tau ≤ 2 ^ (923 : ℤ) := by
    rw [← h923]
    have h1 : (L : K) * A ≤ 65536 * 2 ^ (900 : ℤ) := mul_le_mul hLK hA' (by linarith) (by norm_num)
    have h2 : (L : K) * A * tau ≤ 65536 * 2 ^ (900 : ℤ) * 8 :=
      mul_le_mul h1 ht' (by linarith) (mul_nonneg (by norm_num) (two_zpow_pos _).le)
    generalize (2 : K) ^ (900 : ℤ) = b at *
    linarith
  clear hbb h923 hsum hA' h52
  generalize (2 : K) ^ (-53 : ℤ) = u at *
  generalize (2 : K) ^ (-1075 : ℤ) = eta at *
  generalize (2 : K) ^ (923 : ℤ) = M at *
  have hLu : 2 * ((L : K) + 1) * u ≤ 1 / 8 := by
    have : ((L : K)) * u ≤ 65536 * u := mul_le_mul_of_nonneg_right hLK hu0.le
    linarith
  have hs' : |∑ l ∈ Finset.range L, w l - 1| ≤ 2 * ((L : K) + 1) * u := by linarith
  -- the point is covered
  have hcovd : ∃ m < L, dist m i < r := by
    by_contra hno
    push Not at hno
    have : ∑ l ∈ Finset.range L, w l = 0 := Finset.sum_eq_zero fun l hl =>
      (hw l (Finset.mem_range.1 hl)).2.2.2 (hno l (Finset.mem_range.1 hl))
    rw [this, zero_sub, abs_neg, abs_one] at hs'
    linarith
  obtain ⟨m0, hm0, hdm0⟩ := hcovd
  obtain ⟨hbL, hbd, hbmin⟩ := coveringF_ball hC i hm0 hdm0
  have hin : ∀ m < L, w m ≠ 0 → dist m i < r := fun m hm hwm => by
    by_contra hno
    exact hwm ((hw m hm).2.2.2 (not_lt.1 hno))
  have hrel : ∀ a b, a < L → b < L → dist a i < r → dist b i < r → RipsRel L dll thr a b := by
    intro a b ha hb' hda hdb
    rcases lt_trichotomy a b with hab | hab | hab
    · exact Or.inr (Or.inl ⟨hab, hb', hnerve a b hab hb' hda hdb⟩)
    · exact Or.inl hab
    · exact Or.inr (Or.inr ⟨hab, ha, hnerve b a hab ha hdb hda⟩)
  obtain ⟨y, hy, y0, y1, k, hk⟩ := sparseIntegrateF_error rounding_float64 Eb hu0 he0 hL hLu he1 order' ho' hA ht mt hB hM hT hD
    (Nat.choose L 2) L c f mf hfA hcA C i w (fun l hl => (hw l hl).1) (fun l hl => (hw l hl).2.1) (fun l hl => (hw l hl).2.2.1) hs'
    (dist := dll) (t := thr) (by
      intro m hm' hwm
      have hdm := hin m hm' hwm
      rcases eq_or_lt_of_le (hbmin m hdm) with h | h
      · exact Or.inl h.symm
      · exact Or.inr ⟨h, hm', hnerve _ _ h hm' hbd hdm⟩)
  generalize C.ballIndx i = l0 at *
  refine ⟨y, w, fun l hl => (hw l hl).1, hy, y0, y1, fun l => k - edgeVal c l0 l, ?_, fun l hl hdl => ?_⟩
  · intro l m hl hm' hdl hdm
    have := edgeVal_cocycle hc (hrel l0 l hbL hl hbd hdl) (hrel l m hl hm' hdl hdm) (hrel l0 m hbL hm' hbd hdm)
    beta_reduce
    omega
  -- the first ball and the ball of `l` differ by an integer
  have hev : ∀ m, edgeVal (fun e => (c e : K)) l0 m = ((edgeVal c l0 m : ℤ) : K) := by
    intro m; unfold edgeVal; split_ifs <;> simp
  have hsum2 : ∑ m ∈ Finset.range L, (f m + edgeVal (fun e => (c e : K)) l0 m) * w m =
      ∑ m ∈ Finset.range L, (f m + (edgeVal c l m : ℤ)) * w m + (edgeVal c l0 l : ℤ) * ∑ m ∈ Finset.range L, w m := by
    rw [Finset.mul_sum, ← Finset.sum_add_distrib]
    refine Finset.sum_congr rfl fun m hm' => ?_
    rcases eq_or_ne (w m) 0 with h0 | h0
    · simp [h0]
    · have hm' := Finset.mem_range.1 hm'
      have hdm := hin m hm' h0
      have := edgeVal_cocycle hc (hrel l0 l hbL hl hbd hdl) (hrel l m hl hm' hdl hdm) (hrel l0 m hbL hm' hbd hdm)
      rw [hev, ← this]; push_cast; ring
  rw [hsum2] at hk
  have hcb : |((edgeVal c l0 l : ℤ) : K)| ≤ A := by
    unfold edgeVal
    split_ifs
    · exact hcA _
    · rw [Int.cast_neg, abs_neg]; exact hcA _
    · simp; linarith
  push_cast
  generalize ((edgeVal c l0 l : ℤ) : K) = x at *
  generalize ∑ m ∈ Finset.range L, (f m + (edgeVal c l m : ℤ)) * w m = S at *
  generalize ∑ m ∈ Finset.range L, w m = W at *
  have h1 : |tau * (x * (W - 1))| ≤ tau * (A * (2 * (L + 1) * u)) := by
    rw [abs_mul, abs_mul, abs_of_pos (by linarith : 0 < tau)]
    exact mul_le_mul_of_nonneg_left (mul_le_mul hcb hs' (abs_nonneg _) (by linarith)) (by linarith)
  have e : y - tau * (S - (k - x)) = (y - tau * (S + x * W - k)) + tau * (x * (W - 1)) := by ring
  rw [e]
  refine (abs_add_le _ _).trans ?_
  linarith

/-! ### Exact arithmetic -/

theorem npModF_exact (v : Fl ℝ) {m : ℝ} (hm : 0 < m) : npModF fin v m = flmod v m := by
  cases v with
  | fin x =>
    simp only [npModF, flmod, fmod]
    obtain ⟨h1, h2, h3, k, hk⟩ := cFmod_spec hm x
    rw [abs_lt] at h1
    have key : ∀ z : ℤ, 0 ≤ x - z * m → x - z * m < m → ⌊x / m⌋ = z := by
      intro z a b
      rw [Int.floor_eq_iff]
      constructor
      · rw [le_div_iff₀ hm]; linarith
      · rw [div_lt_iff₀ hm]; linarith
    split
    · next h =>
      rw [hk] at h h1 ⊢
      rw [key (k - 1) (by push_cast; linarith) (by push_cast; linarith)]
      push_cast; congr 1; ring
    · next h =>
      rw [hk] at h h1 ⊢
      rw [key k (by linarith) h1.2]
      congr 1; ring
  | nan => rfl
  | pinf => rfl
  | ninf => rfl

theorem mulVecF_exact (A : SparseMat) (f : ℕ → ℝ) (r : ℕ) : A.mulVecF fin (fun l => fin (f l)) r = fin (A.mulVec f r) := by
  unfold SparseMat.mulVecF SparseMat.mulVec
  have : ∀ (es : List (ℕ × ℕ × ℤ)) (s : ℝ), es.foldl (fun s e => if e.1 = r then
      Fl.round fin (s + Fl.round fin (fin ((e.2.2 : ℤ) : ℝ) * fin (f e.2.1))) else s) (fin s) =
      fin (s + (es.map fun e => if e.1 = r then ((e.2.2 : ℤ) : ℝ) * f e.2.1 else 0).sum) := by
    intro es
    induction es with
    | nil => intro s; simp
    | cons e es ih =>
      intro s
      rw [List.foldl_cons, List.map_cons, List.sum_cons]
      by_cases h : e.1 = r
      · rw [if_pos h, if_pos h]
        refine (ih (s + (e.2.2 : ℤ) * f e.2.1)).trans ?_
        congr 1; ring
      · rw [if_neg h, if_neg h, ih, zero_add]
  have h0 := this A.entries 0
  rw [zero_add] at h0
  simpa [Fl.zero_def] using h0

/-- With exact arithmetic (`rnd = fin`) the rounded coordinate is the coordinate of the exact model. -/
theorem sparseIntegrateF_exact (order : SumTree) (n : ℕ) (ho : ∀ g : ℕ → Fl ℝ, order.eval fin g = flSum ((List.range n).map g))
    (c : ℕ → ℤ) (delta0 : SparseMat) (f : ℕ → ℝ) (cov : Covering ℝ) (dist : ℕ → ℕ → E) (t : E) (T : Table) (i : ℕ) :
    sparseIntegrateF fin (2 * Real.pi) order (harmRepF fin c delta0 fun l => fin (f l)) (fun l => fin (f l)) cov n dist t T i =
      sparseIntegrate (fun e => (c e : ℝ) - delta0.mulVec f e) f cov n dist t T i := by
  have hth : ∀ a b, thetaMatrixF (harmRepF fin c delta0 fun l => fin (f l)) n dist t T a b =
      fin (thetaMatrix (fun e => (c e : ℝ) - delta0.mulVec f e) n dist t T a b) := by
    intro a b
    have hh : ∀ e, harmRepF fin c delta0 (fun l => fin (f l)) e = fin ((c e : ℝ) - delta0.mulVec f e) := by
      intro e; unfold harmRepF; simp only [round_fin, mulVecF_exact, fin_sub]
    have h1 : thetaMatrixF (harmRepF fin c delta0 fun l => fin (f l)) n dist t T =
        (ripsEdges n dist t).foldl (fun (M : ℕ → ℕ → Fl ℝ) e => Function.update M e.1
          (Function.update (M e.1) e.2 (harmRepF fin c delta0 (fun l => fin (f l)) (cnsD1 e.1 e.2 T)))) (fun _ _ => fin 0) := by
      unfold thetaMatrixF ripsEdges
      simp only [List.foldl_flatMap, foldl_ite_single]
    have h2 : thetaMatrix (fun e => (c e : ℝ) - delta0.mulVec f e) n dist t T =
        (ripsEdges n dist t).foldl (fun (M : ℕ → ℕ → ℝ) e => Function.update M e.1
          (Function.update (M e.1) e.2 ((c (cnsD1 e.1 e.2 T) : ℝ) - delta0.mulVec f (cnsD1 e.1 e.2 T)))) (fun _ _ => 0) := by
      unfold thetaMatrix ripsEdges
      simp only [List.foldl_flatMap, foldl_ite_single]
    rw [h1, h2, foldl_update _ (fun a b => harmRepF fin c delta0 (fun l => fin (f l)) (cnsD1 a b T)),
      foldl_update _ (fun a b => (c (cnsD1 a b T) : ℝ) - delta0.mulVec f (cnsD1 a b T))]
    split
    · rw [hh]
    · rfl
  unfold sparseIntegrateF sparseIntegrate angleF
  simp only [round_exact, ho, hth, npModF_exact _ Real.two_pi_pos]

end

end Dreimac
