import Verif.Model.SparseIntegrateFloat
import Verif.Spec.Cech
import Verif.Lemmas.Toroidal
import Verif.Props.CircleMapFloat

/-!
# Circular coordinates in rounded arithmetic: entries of the matrices and the error of one coordinate
-/

namespace Dreimac

open Fl

theorem foldl_unique {α β : Type} (g : β → α → β) (l : List α) (x : α) (hnd : l.Nodup) (hx : x ∈ l)
    (hg : ∀ y ∈ l, y ≠ x → ∀ s, g s y = s) (s : β) : l.foldl g s = g s x := by
  have hid : ∀ (m : List α), (∀ y ∈ m, ∀ s, g s y = s) → ∀ s, m.foldl g s = s := by
    intro m
    induction m with
    | nil => intro _ s; rfl
    | cons a m ih => intro h s; rw [List.foldl_cons, h a (by simp), ih (fun y hy => h y (by simp [hy]))]
  induction l generalizing s with
  | nil => simp at hx
  | cons a l ih =>
    rw [List.nodup_cons] at hnd
    rw [List.foldl_cons]
    rcases List.mem_cons.1 hx with rfl | hx'
    · exact hid l (fun y hy t => hg y (by simp [hy]) (fun e => hnd.1 (e ▸ hy)) t) _
    · rw [hg a (by simp) (fun e => hnd.1 (e ▸ hx')), ih hnd.2 hx' (fun y hy => hg y (by simp [hy]))]

section
variable {K : Type} [Field K] [LinearOrder K] [IsStrictOrderedRing K] [FloorRing K] {rnd : K → Fl K}
variable {E : Type} [LT E] [DecidableLT E] {n N D : ℕ} {dist : ℕ → ℕ → E} {t : E}

theorem thetaMatrixF_apply (hn : n ≤ N) (hD : 1 ≤ D) (harm : ℕ → Fl K) (i j : ℕ) :
    thetaMatrixF harm n dist t (cnsTable N D) i j =
      if i < j ∧ j < n ∧ dist i j < t then harm (edgeIdx i j) else fin 0 := by
  have h : thetaMatrixF harm n dist t (cnsTable N D) = (ripsEdges n dist t).foldl (fun M e => Function.update M e.1
      (Function.update (M e.1) e.2 (harm (cnsD1 e.1 e.2 (cnsTable N D))))) (fun _ _ => fin 0) := by
    unfold thetaMatrixF ripsEdges
    simp only [List.foldl_flatMap, foldl_ite_single]
  rw [h, foldl_update _ (fun a b => harm (cnsD1 a b (cnsTable N D)))]
  by_cases he : i < j ∧ j < n ∧ dist i j < t
  · rw [if_pos (mem_ripsEdges.2 he), if_pos he, cnsD1_edgeIdx (by omega) (by omega) hD]
  · rw [if_neg (fun h => he (mem_ripsEdges.1 h)), if_neg he]

/-- A row of the coboundary matrix times a vector of machine numbers: one rounded subtraction. -/
theorem delta0_mulVecF (R : Rounding rnd) (hn : n ≤ N) (hD : 1 ≤ D) (nr nc : ℕ) (f : ℕ → K) (mf : ∀ l, Machine rnd (f l))
    {i j : ℕ} (hij : i < j) (hj : j < n) (he : dist i j < t) :
    SparseMat.mulVecF rnd ⟨nr, nc, (ripsEdges n dist t).flatMap (chunk0 (cnsTable N D))⟩ (fun l => fin (f l)) (edgeIdx i j) =
      rnd (f i - f j) := by
  unfold SparseMat.mulVecF
  simp only [List.foldl_flatMap]
  have hidx : ∀ a b, a < b → b < n → cnsD1 a b (cnsTable N D) = edgeIdx a b :=
    fun a b _ _ => cnsD1_edgeIdx (by omega) (by omega) hD
  rw [foldl_unique _ _ (i, j) (nodup_ripsEdges n dist t) (mem_ripsEdges.2 ⟨hij, hj, he⟩)]
  · simp only [chunk0, List.foldl_cons, List.foldl_nil, hidx i j hij hj, if_true]
    simp only [Int.cast_one, Int.cast_neg, fin_mul, one_mul, neg_mul, round_fin, Machine.out (mf i), Machine.out (R.machine_neg (mf j)),
      Fl.zero_def, fin_add, zero_add, Machine.out (mf i), sub_eq_add_neg]
  · rintro ⟨a, b⟩ hab hne s
    rw [mem_ripsEdges] at hab
    have : edgeIdx a b ≠ edgeIdx i j := by
      intro h
      obtain ⟨h1, h2⟩ := edgeIdx_inj hab.1 hij h
      exact hne (by rw [h1, h2])
    simp only [chunk0, List.foldl_cons, List.foldl_nil, hidx a b hab.1 hab.2.1, if_neg this]

omit [FloorRing K] in
theorem one_add_pow_sub_one_le {u : K} (hu : 0 ≤ u) (L : ℕ) : (1 + u) ^ L - 1 ≤ L * u * (1 + u) ^ (L - 1) := by
  induction L with
  | zero => simp
  | succ L ih =>
    rcases Nat.eq_zero_or_pos L with rfl | hL
    · simp
    · have e : (1 + u) ^ (L + 1 - 1) = (1 + u) ^ (L - 1) * (1 + u) := by rw [← pow_succ]; congr 1; omega
      have e' : (1 + u) ^ L = (1 + u) ^ (L - 1) * (1 + u) := by rw [← pow_succ]; congr 1; omega
      rw [pow_succ, e]
      push_cast
      rw [e'] at ih ⊢
      have hP : 0 ≤ (1 + u) ^ (L - 1) := pow_nonneg (by linarith) _
      generalize (1 + u) ^ (L - 1) = P at *
      have : 0 ≤ L * u * P * u := by positivity
      nlinarith

/-- The error of one coordinate, from the errors of the entries `θ` of `theta_matrix` (exact values `θ'`). -/
theorem integrate_error (R : Rounding rnd) {u eta : K} (B : ErrorBound rnd u eta) (hu : 0 < u) (heta : 0 ≤ eta) {L : ℕ} (hL : 0 < L)
    (hLu : L * u ≤ 1 / 8) (hLe : L * eta ≤ u) (order : SumTree) (ho : order.leaves.Perm (List.range L)) {A M : K} (hA : 1 ≤ A)
    {tau : K} (ht : 1 ≤ tau) (mt : Machine rnd tau) (mM : Machine rnd M) (hM : 16 * L * A * tau ≤ M)
    (f0 : K) (mf : Machine rnd f0) (hf : |f0| ≤ A) (θ θ' w : ℕ → K) (hθ : ∀ m < L, |θ m| ≤ 4 * A)
    (hd : ∀ m < L, |θ m - θ' m| ≤ 8 * A * u) (hw0 : ∀ m < L, 0 ≤ w m) (hw1 : ∀ m < L, w m ≤ 1)
    (hw2 : ∑ m ∈ Finset.range L, w m ≤ 2) :
    ∃ y, angleF rnd tau (Fl.round rnd (fin f0 + order.eval rnd fun m => Fl.round rnd (fin (θ m) * fin (w m)))) = fin y ∧
      0 ≤ y ∧ y ≤ tau ∧
      ∃ k : ℤ, |y - tau * (f0 + ∑ m ∈ Finset.range L, θ' m * w m - k)| ≤ (16 * L + 47) * A * u * tau := by
  obtain ⟨hP2, -, -⟩ := sum_bound_simple hL hu hLu
  have hL1 : (1 : K) ≤ L := by exact_mod_cast hL
  have hu8 : u ≤ 1 / 8 := by nlinarith
  have heu : eta ≤ u := by nlinarith
  have hAL : A ≤ L * A := by nlinarith
  have hLA0 : 0 ≤ L * A := by positivity
  have hM' : 16 * (L * A) ≤ M := by
    have : 16 * (L * A) ≤ 16 * (L * A) * tau := by nlinarith
    linarith
  have hAu : u ≤ A * u := by nlinarith
  have hAu0 : 0 ≤ A * u := hu.le.trans hAu
  have hmem : ∀ l ∈ order.leaves, l < L := fun l hl => List.mem_range.1 (ho.mem_iff.1 hl)
  have hlen : order.leaves.length = L := by rw [ho.length_eq, List.length_range]
  -- the products
  have hprod : ∀ m < L, |θ m * w m| ≤ 4 * A * w m := fun m hm => by
    rw [abs_mul, abs_of_nonneg (hw0 m hm)]
    exact mul_le_mul_of_nonneg_right (hθ m hm) (hw0 m hm)
  have hprod' : ∀ m < L, |θ m * w m| ≤ 4 * A := fun m hm =>
    (hprod m hm).trans (by have := hw1 m hm; nlinarith)
  have hy : ∀ m, ∃ y, m < L → rnd (θ m * w m) = fin y ∧ |y| ≤ 5 * A ∧ Machine rnd y := by
    intro m
    by_cases hm : m < L
    · obtain ⟨y, e, -, my⟩ := R.abs_between mM ((hprod' m hm).trans (by linarith))
      refine ⟨y, fun _ => ⟨e, ?_, my⟩⟩
      have h1 := B.all _ _ e
      have h2 := abs_sub_abs_le_abs_sub y (θ m * w m)
      have h3 : u * |θ m * w m| ≤ 1 / 8 * (4 * A) := mul_le_mul hu8 (hprod' m hm) (abs_nonneg _) (by norm_num)
      have := hprod' m hm
      linarith
    · exact ⟨0, fun h => absurd h hm⟩
  choose y hy using hy
  have hb := order.eval_bounded R B hu.le y (b := 5 * A) (by linarith) mM (fun l hl => (hy l (hmem l hl)).2.2)
    (fun l hl => (hy l (hmem l hl)).2.1) (by
      rw [hlen]
      calc (1 + u) ^ (L - 1) * (L * (5 * A)) ≤ 2 * (L * (5 * A)) := mul_le_mul_of_nonneg_right hP2 (by positivity)
        _ ≤ M := by linarith)
  obtain ⟨s, hs, ms, -⟩ := hb
  have heval : ∀ (t : SumTree), (∀ l ∈ t.leaves, l < L) →
      t.eval rnd (fun m => Fl.round rnd (fin (θ m) * fin (w m))) = t.eval rnd (fun l => fin (y l)) ∧
      t.eval rnd (fun m => rnd (θ m * w m)) = t.eval rnd (fun l => fin (y l)) := by
    intro t
    induction t with
    | leaf l =>
      intro h
      have := (hy l (h l (by simp [SumTree.leaves]))).1
      simp only [SumTree.eval, fin_mul, round_fin, this, and_self]
    | node a b iha ihb =>
      intro h
      simp only [SumTree.leaves, List.mem_append] at h
      obtain ⟨a1, a2⟩ := iha (fun l hl => h l (.inl hl))
      obtain ⟨b1, b2⟩ := ihb (fun l hl => h l (.inr hl))
      simp only [SumTree.eval, a1, a2, b1, b2, and_self]
  obtain ⟨e1, e2⟩ := heval order hmem
  obtain ⟨-, es⟩ := order.eval_round_error R B hu.le (fun m => θ m * w m) ho (s := s) (by rw [e2, hs])
  have hS : ∑ m ∈ Finset.range L, |θ m * w m| ≤ 8 * A := by
    calc _ ≤ ∑ m ∈ Finset.range L, 4 * A * w m := Finset.sum_le_sum fun m hm => hprod m (Finset.mem_range.1 hm)
      _ = 4 * A * ∑ m ∈ Finset.range L, w m := by rw [Finset.mul_sum]
      _ ≤ 4 * A * 2 := mul_le_mul_of_nonneg_left hw2 (by linarith)
      _ = 8 * A := by ring
  have hS0 : 0 ≤ ∑ m ∈ Finset.range L, |θ m * w m| := Finset.sum_nonneg fun _ _ => abs_nonneg _
  have hSabs : |∑ m ∈ Finset.range L, θ m * w m| ≤ 8 * A := (Finset.abs_sum_le_sum_abs _ _).trans hS
  have hgam : (1 + u) ^ L - 1 ≤ 2 * (L * u) := by
    have := one_add_pow_sub_one_le hu.le L
    have h2 : L * u * (1 + u) ^ (L - 1) ≤ L * u * 2 := mul_le_mul_of_nonneg_left hP2 (by positivity)
    linarith
  have es' : |s - ∑ m ∈ Finset.range L, θ m * w m| ≤ 16 * (L * (A * u)) + 2 * u := by
    refine es.trans ?_
    have h1 : ((1 + u) ^ L - 1) * ∑ m ∈ Finset.range L, |θ m * w m| ≤ 2 * (L * u) * (8 * A) :=
      mul_le_mul hgam hS hS0 (by positivity)
    have h2 : L * (1 + u) ^ (L - 1) * eta ≤ 2 * u := by
      calc L * (1 + u) ^ (L - 1) * eta = (1 + u) ^ (L - 1) * (L * eta) := by ring
        _ ≤ 2 * u := mul_le_mul hP2 hLe (by positivity) (by norm_num)
    linarith
  have hLAu : L * (A * u) ≤ A / 8 := by
    have := mul_le_mul_of_nonneg_left hLu (by linarith : 0 ≤ A)
    linarith
  have hsb : |s| ≤ 11 * A := by
    have := abs_sub_abs_le_abs_sub s (∑ m ∈ Finset.range L, θ m * w m)
    linarith
  -- the difference of the exact sums
  have hdiff : |∑ m ∈ Finset.range L, θ m * w m - ∑ m ∈ Finset.range L, θ' m * w m| ≤ 16 * (A * u) := by
    rw [← Finset.sum_sub_distrib]
    calc _ ≤ ∑ m ∈ Finset.range L, |θ m * w m - θ' m * w m| := Finset.abs_sum_le_sum_abs _ _
      _ ≤ ∑ m ∈ Finset.range L, 8 * A * u * w m := Finset.sum_le_sum fun m hm => by
          have hm := Finset.mem_range.1 hm
          rw [← sub_mul, abs_mul, abs_of_nonneg (hw0 m hm)]
          exact mul_le_mul_of_nonneg_right (hd m hm) (hw0 m hm)
      _ = 8 * A * u * ∑ m ∈ Finset.range L, w m := by rw [Finset.mul_sum]
      _ ≤ 8 * A * u * 2 := mul_le_mul_of_nonneg_left hw2 (by positivity)
      _ = 16 * (A * u) := by ring
  have hfs : |f0 + s| ≤ 12 * A := (abs_add_le _ _).trans (by linarith)
  have hfs' : |f0 + s| ≤ 9 * A + (16 * (L * (A * u)) + 2 * u) := by
    refine (abs_add_le _ _).trans ?_
    have := abs_sub_abs_le_abs_sub s (∑ m ∈ Finset.range L, θ m * w m)
    linarith
  obtain ⟨cm, ecm, -, mcm⟩ := R.abs_between mM (hfs.trans (by linarith))
  have hcm := B.sum _ _ _ mf ms ecm
  have hcm' : |cm - (f0 + s)| ≤ 12 * (A * u) := hcm.trans (by
    have := mul_le_mul_of_nonneg_left hfs hu.le; linarith)
  have hcmb : |cm| ≤ 14 * A := by
    have h1 := abs_sub_abs_le_abs_sub cm (f0 + s)
    have h2 : A * u ≤ A * (1 / 8) := mul_le_mul_of_nonneg_left hu8 (by linarith)
    linarith
  obtain ⟨z, ez, -, -⟩ := R.abs_between mM (show |tau * cm| ≤ M by
    rw [abs_mul, abs_of_pos (by linarith)]
    have := mul_le_mul_of_nonneg_left (hcmb.trans (by linarith : 14 * A ≤ 16 * (L * A))) (by linarith : 0 ≤ tau)
    linarith)
  have hz := B.all _ _ ez
  obtain ⟨v, ev, v0, v1, k, hk⟩ := npModF_spec R B hu.le heta (by linarith) mt z
  refine ⟨v, ?_, v0, v1, k, ?_⟩
  · unfold angleF
    rw [e1, hs, fin_add, round_fin, ecm, fin_mul, round_fin, ez, ev]
  · rw [abs_mul, abs_of_pos (by linarith : 0 < tau)] at hz
    have c1 : |z - tau * cm| ≤ 14 * (A * u) * tau + A * u * tau := by
      refine hz.trans ?_
      have g1 : u * (tau * |cm|) ≤ u * (tau * (14 * A)) :=
        mul_le_mul_of_nonneg_left (mul_le_mul_of_nonneg_left hcmb (by linarith)) hu.le
      have g2 : eta ≤ A * u * tau := (heu.trans hAu).trans (le_mul_of_one_le_right hAu0 ht)
      linarith
    have c2 : |v - (z - k * tau)| ≤ 2 * (A * u * tau) := by
      refine hk.trans ?_
      have g1 : u * tau ≤ A * u * tau := mul_le_mul_of_nonneg_right hAu (by linarith)
      have g2 : eta ≤ A * u * tau := (heu.trans hAu).trans (le_mul_of_one_le_right hAu0 ht)
      linarith
    have c3 : |cm - (f0 + ∑ m ∈ Finset.range L, θ' m * w m)| ≤ 16 * (L * (A * u)) + 30 * (A * u) := by
      have : cm - (f0 + ∑ m ∈ Finset.range L, θ' m * w m) = (cm - (f0 + s)) + (s - ∑ m ∈ Finset.range L, θ m * w m) +
          (∑ m ∈ Finset.range L, θ m * w m - ∑ m ∈ Finset.range L, θ' m * w m) := by ring
      rw [this]
      refine (abs_add_three _ _ _).trans ?_
      linarith
    have c4 : |tau * (cm - (f0 + ∑ m ∈ Finset.range L, θ' m * w m))| ≤ tau * (16 * (L * (A * u)) + 30 * (A * u)) := by
      rw [abs_mul, abs_of_pos (by linarith : 0 < tau)]
      exact mul_le_mul_of_nonneg_left c3 (by linarith)
    have : v - tau * (f0 + ∑ m ∈ Finset.range L, θ' m * w m - k) = (v - (z - k * tau)) + (z - tau * cm) +
        tau * (cm - (f0 + ∑ m ∈ Finset.range L, θ' m * w m)) := by ring
    rw [this]
    refine (abs_add_three _ _ _).trans ?_
    linarith

/-- The entry of `theta_matrix` on an edge. -/
theorem harmRepF_error (R : Rounding rnd) {u eta : K} (B : ErrorBound rnd u eta) (hu : 0 < u) (hu8 : u ≤ 1 / 8) (heta : eta ≤ u)
    {A M : K} (hA : 1 ≤ A) (mM : Machine rnd M) (hM : 4 * A ≤ M) (hn : n ≤ N) (hD : 1 ≤ D) (nr nc : ℕ) (c : ℕ → ℤ) (f : ℕ → K)
    (mf : ∀ l, Machine rnd (f l)) (hf : ∀ l, |f l| ≤ A) {i j : ℕ} (hij : i < j) (hj : j < n) (he : dist i j < t)
    (hc : |(c (edgeIdx i j) : K)| ≤ A) :
    ∃ θ, harmRepF rnd c ⟨nr, nc, (ripsEdges n dist t).flatMap (chunk0 (cnsTable N D))⟩ (fun l => fin (f l)) (edgeIdx i j) = fin θ ∧
      |θ| ≤ 4 * A ∧ |θ - ((c (edgeIdx i j) : K) - (f i - f j))| ≤ 8 * A * u := by
  unfold harmRepF
  simp only [round_fin]
  rw [delta0_mulVecF R hn hD nr nc f mf hij hj he]
  generalize (c (edgeIdx i j) : K) = x at *
  have hAu : u ≤ A * u := by nlinarith
  have hAu8 : A * u ≤ A / 8 := by nlinarith
  obtain ⟨x1, e1, -, m1⟩ := R.abs_between mM (hc.trans (by linarith))
  have b1 := B.all _ _ e1
  have b1' : |x1 - x| ≤ 2 * (A * u) := b1.trans (by
    have := mul_le_mul_of_nonneg_left hc hu.le; linarith)
  have hfij : |f i - f j| ≤ 2 * A := (abs_sub _ _).trans (by linarith [hf i, hf j])
  obtain ⟨g, e2, -, m2⟩ := R.abs_between mM (hfij.trans (by linarith))
  have b2 : |g - (f i - f j)| ≤ 2 * (A * u) := by
    have := B.sum (f i) (-(f j)) g (mf i) (R.machine_neg (mf j)) (by rw [← sub_eq_add_neg, e2])
    rw [← sub_eq_add_neg] at this
    have h3 := mul_le_mul_of_nonneg_left hfij hu.le
    linarith
  have hx1 : |x1| ≤ A + 2 * (A * u) := by have := abs_sub_abs_le_abs_sub x1 x; linarith
  have hg : |g| ≤ 2 * A + 2 * (A * u) := by have := abs_sub_abs_le_abs_sub g (f i - f j); linarith
  have hxg : |x1 - g| ≤ 7 / 2 * A := (abs_sub _ _).trans (by linarith)
  obtain ⟨h, e3, -, m3⟩ := R.abs_between mM (hxg.trans (by linarith))
  have b3 : |h - (x1 - g)| ≤ 7 / 2 * (A * u) := by
    have := B.sum x1 (-g) h m1 (R.machine_neg m2) (by rw [← sub_eq_add_neg, e3])
    rw [← sub_eq_add_neg] at this
    have h3 := mul_le_mul_of_nonneg_left hxg hu.le
    linarith
  refine ⟨h, by rw [e1, e2, fin_sub, round_fin, e3], ?_, ?_⟩
  · have := abs_sub_abs_le_abs_sub h (x1 - g)
    linarith
  · have e : h - (x - (f i - f j)) = (h - (x1 - g)) + (x1 - x) + -(g - (f i - f j)) := by ring
    rw [e]
    refine (abs_add_three _ _ _).trans ?_
    rw [abs_neg]
    linarith

/-- The coordinate of a data point in rounded arithmetic, for weights `w` that add up to about 1 and vanish for the landmarks
before the first ball and off the star of it. -/
theorem sparseIntegrateF_error (R : Rounding rnd) {u eta : K} (B : ErrorBound rnd u eta) (hu : 0 < u) (heta : 0 ≤ eta) (hL : 0 < n)
    (hLu : 2 * (n + 1) * u ≤ 1 / 8) (hLe : n * eta ≤ u) (order : SumTree) (ho : order.leaves.Perm (List.range n)) {A M : K} (hA : 1 ≤ A)
    {tau : K} (ht : 1 ≤ tau) (mt : Machine rnd tau) (mM : Machine rnd M) (hM : 16 * n * A * tau ≤ M) (hn : n ≤ N) (hD : 1 ≤ D)
    (nr nc : ℕ) (c : ℕ → ℤ) (f : ℕ → K) (mf : ∀ l, Machine rnd (f l)) (hf : ∀ l, |f l| ≤ A) (hc : ∀ e, |(c e : K)| ≤ A)
    (cov : Covering K) (i : ℕ) (w : ℕ → K) (hcov : ∀ l < n, cov.varphi l i = fin (w l)) (hw0 : ∀ m < n, 0 ≤ w m)
    (hw1 : ∀ m < n, w m ≤ 1) (hws : |∑ m ∈ Finset.range n, w m - 1| ≤ 2 * (n + 1) * u)
    (hz : ∀ m < n, w m ≠ 0 → m = cov.ballIndx i ∨ RipsEdge n dist t (cov.ballIndx i) m) :
    ∃ y, sparseIntegrateF rnd tau order
        (harmRepF rnd c ⟨nr, nc, (ripsEdges n dist t).flatMap (chunk0 (cnsTable N D))⟩ (fun l => fin (f l))) (fun l => fin (f l)) cov n
        dist t (cnsTable N D) i = fin y ∧ 0 ≤ y ∧ y ≤ tau ∧
      ∃ k : ℤ, |y - tau * (∑ m ∈ Finset.range n, (f m + edgeVal (fun e => (c e : K)) (cov.ballIndx i) m) * w m - k)| ≤
        (18 * n + 49) * A * u * tau := by
  classical
  have hL1 : (1 : K) ≤ n := by exact_mod_cast hL
  have hnu : 0 ≤ n * u := by positivity
  have hu8 : u ≤ 1 / 8 := by nlinarith
  have heu : eta ≤ u := by nlinarith
  have hM4 : 4 * A ≤ M := by
    have h1 : A ≤ n * A := le_mul_of_one_le_left (by linarith) hL1
    have h2 : n * A ≤ n * A * tau := le_mul_of_one_le_right (by linarith) ht
    linarith
  generalize hl0 : cov.ballIndx i = l0 at *
  have hex : ∀ m, ∃ θ : K, thetaMatrixF (harmRepF rnd c ⟨nr, nc, (ripsEdges n dist t).flatMap (chunk0 (cnsTable N D))⟩
      (fun l => fin (f l))) n dist t (cnsTable N D) l0 m = fin θ ∧ |θ| ≤ 4 * A ∧
      |θ - (if RipsEdge n dist t l0 m then (c (edgeIdx l0 m) : K) - (f l0 - f m) else 0)| ≤ 8 * A * u := by
    intro m
    rw [thetaMatrixF_apply hn hD]
    by_cases h : l0 < m ∧ m < n ∧ dist l0 m < t
    · rw [if_pos h, if_pos (show RipsEdge n dist t l0 m from h)]
      exact harmRepF_error R B hu hu8 heu hA mM hM4 hn hD nr nc c f mf hf h.1 h.2.1 h.2.2 (hc _)
    · rw [if_neg h, if_neg (show ¬ RipsEdge n dist t l0 m from h)]
      exact ⟨0, rfl, by rw [abs_zero]; linarith, by rw [sub_self, abs_zero]; positivity⟩
  choose θ hθ hθb hθd using hex
  obtain ⟨a1, a2⟩ := abs_le.1 hws
  obtain ⟨y, hy, y0, y1, k, hk⟩ := integrate_error R B hu heta hL (by linarith) hLe order ho hA ht mt mM hM (f l0) (mf l0) (hf l0) θ
    (fun m => if RipsEdge n dist t l0 m then (c (edgeIdx l0 m) : K) - (f l0 - f m) else 0) w (fun m _ => hθb m) (fun m _ => hθd m)
    hw0 hw1 (by linarith)
  refine ⟨y, ?_, y0, y1, k, ?_⟩
  · rw [← hy]
    unfold sparseIntegrateF
    have heval : ∀ (s : SumTree), (∀ l ∈ s.leaves, l < n) →
        s.eval rnd (fun m => Fl.round rnd (thetaMatrixF (harmRepF rnd c ⟨nr, nc, (ripsEdges n dist t).flatMap (chunk0 (cnsTable N D))⟩
          (fun l => fin (f l))) n dist t (cnsTable N D) l0 m * cov.varphi m i)) =
        s.eval rnd fun m => Fl.round rnd (fin (θ m) * fin (w m)) := by
      intro s
      induction s with
      | leaf l => intro h; simp only [SumTree.eval, hθ, hcov l (h l (by simp [SumTree.leaves]))]
      | node a b iha ihb =>
        intro h
        simp only [SumTree.leaves, List.mem_append] at h
        simp only [SumTree.eval, iha (fun l hl => h l (.inl hl)), ihb (fun l hl => h l (.inr hl))]
    simp only [hl0]
    rw [heval order (fun l hl => List.mem_range.1 (ho.mem_iff.1 hl))]
  · have hsum : ∑ m ∈ Finset.range n, (f m + edgeVal (fun e => (c e : K)) l0 m) * w m =
        f l0 + (∑ m ∈ Finset.range n, (if RipsEdge n dist t l0 m then (c (edgeIdx l0 m) : K) - (f l0 - f m) else 0) * w m) +
          f l0 * (∑ m ∈ Finset.range n, w m - 1) := by
      rw [mul_sub, Finset.mul_sum]
      have : ∀ m ∈ Finset.range n, (f m + edgeVal (fun e => (c e : K)) l0 m) * w m =
          (if RipsEdge n dist t l0 m then (c (edgeIdx l0 m) : K) - (f l0 - f m) else 0) * w m + f l0 * w m := by
        intro m hm
        rcases eq_or_ne (w m) 0 with h | h
        · simp [h]
        · rcases hz m (Finset.mem_range.1 hm) h with rfl | h'
          · have : ¬ RipsEdge n dist t m m := fun h => lt_irrefl _ h.1
            rw [if_neg this]; simp [edgeVal]
          · rw [if_pos h', edgeVal, if_pos h'.1]; ring
      rw [Finset.sum_congr rfl this, Finset.sum_add_distrib]
      ring
    rw [hsum]
    generalize (∑ m ∈ Finset.range n, (if RipsEdge n dist t l0 m then (c (edgeIdx l0 m) : K) - (f l0 - f m) else 0) * w m) = S at *
    generalize ∑ m ∈ Finset.range n, w m = W at *
    have h1 : |tau * (f l0 * (W - 1))| ≤ tau * (A * (2 * (n + 1) * u)) := by
      rw [abs_mul, abs_mul, abs_of_pos (by linarith : 0 < tau)]
      exact mul_le_mul_of_nonneg_left (mul_le_mul (hf l0) hws (abs_nonneg _) (by linarith)) (by linarith)
    have e : y - tau * (f l0 + S + f l0 * (W - 1) - k) = (y - tau * (f l0 + S - k)) + -(tau * (f l0 * (W - 1))) := by ring
    rw [e]
    refine (abs_add_le _ _).trans ?_
    rw [abs_neg]
    linarith

end

end Dreimac
