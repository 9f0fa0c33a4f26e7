import Mathlib.Data.Int.GCD
import Mathlib.Tactic.FieldSimp
import Verif.Model.ClassMap
import Verif.Spec.ClassMap
import Verif.Lemmas.Circular
import Verif.Lemmas.Glued
import Verif.Lemmas.Ppca

/-! # Lemmas about class maps -/

namespace Dreimac

open Real

/-! ### array updates -/

theorem set2_apply {α : Type} (M : ℕ → ℕ → α) (a b : ℕ) (v : α) (i j : ℕ) :
    set2 M a b v i j = if i = a ∧ j = b then v else M i j := by
  unfold set2
  by_cases hi : i = a
  · subst hi
    by_cases hj : j = b
    · subst hj; simp
    · simp [hj]
  · simp [hi]

theorem set3_apply {α : Type} (M : ℕ → ℕ → ℕ → α) (a b c : ℕ) (v : α) (i j k : ℕ) :
    set3 M a b c v i j k = if i = a ∧ j = b ∧ k = c then v else M i j k := by
  unfold set3
  by_cases hi : i = a
  · subst hi
    simp only [Function.update_self, set2_apply, true_and]
  · simp [hi]

open Classical in
/-- Writes that agree with a function `g` at the positions they touch. -/
theorem foldl_set2 {α β : Type} (l : List β) (pa pb : β → ℕ) (v : β → α) (g : ℕ → ℕ → α)
    (h : ∀ e ∈ l, v e = g (pa e) (pb e)) (M : ℕ → ℕ → α) (i j : ℕ) :
    (l.foldl (fun M e => set2 M (pa e) (pb e) (v e)) M) i j = if ∃ e ∈ l, pa e = i ∧ pb e = j then g i j else M i j := by
  induction l generalizing M with
  | nil => simp
  | cons e l ih =>
    rw [List.foldl_cons, ih (fun e he => h e (by simp [he]))]
    by_cases h1 : ∃ e ∈ l, pa e = i ∧ pb e = j
    · obtain ⟨e', he', h2⟩ := h1
      rw [if_pos ⟨e', he', h2⟩, if_pos ⟨e', by simp [he'], h2⟩]
    · rw [if_neg h1, set2_apply]
      by_cases h2 : i = pa e ∧ j = pb e
      · rw [if_pos h2, if_pos ⟨e, by simp, h2.1.symm, h2.2.symm⟩, h e (by simp), h2.1, h2.2]
      · rw [if_neg h2, if_neg]
        rintro ⟨e', he', h3⟩
        rcases List.mem_cons.1 he' with rfl | he'
        · exact h2 ⟨h3.1.symm, h3.2.symm⟩
        · exact h1 ⟨e', he', h3⟩

/-! ### cocycles modulo `p`, in any order of the vertices -/

theorem pairCocycle_any {p : ℤ} {L : ℕ} {dll : ℕ → ℕ → ℝ} {t : ℝ} {x : ℕ → ℕ → ℤ} (hx : ∀ l m, x m l = -x l m)
    (hc : PairCocycleMod p L dll t x) {a b d : ℕ} (h1 : RipsRel L dll t a b)
    (h2 : RipsRel L dll t b d) (h3 : RipsRel L dll t a d) : p ∣ x a b + x b d - x a d := by
  have key : ∀ i j k, i < j → j < k → RipsRel L dll t i j → RipsRel L dll t j k → RipsRel L dll t i k →
      p ∣ x i j + x j k - x i k := fun i j k hij hjk e1 e2 e3 =>
    hc i j k ⟨ripsRel_of_lt e1 hij, ripsRel_of_lt e2 hjk, ripsRel_of_lt e3 (hij.trans hjk)⟩
  have hself : ∀ l, x l l = 0 := fun l => by have := hx l l; omega
  rcases lt_trichotomy a b with h | h | h
  · rcases lt_trichotomy b d with h' | h' | h'
    · exact key a b d h h' h1 h2 h3
    · subst h'; rw [hself]; simp
    · rcases lt_trichotomy a d with h'' | h'' | h''
      · have := key a d b h'' h' h3 h2.symm h1
        rw [hx d b] 
        have e : x a b + -x d b - x a d = -(x a d + x d b - x a b) := by ring
        rw [e]; exact this.neg_right
      · subst h''; rw [hself, hx a b]; simp
      · have := key d a b h'' h h3.symm h1 h2.symm
        rw [hx d b, hx d a]
        have e : x a b + -x d b - -x d a = (x d a + x a b - x d b) := by ring
        rw [e]; exact this
  · subst h; rw [hself]; simp
  · rcases lt_trichotomy b d with h' | h' | h'
    · rcases lt_trichotomy a d with h'' | h'' | h''
      · have := key b a d h h'' h1.symm h3 h2
        rw [hx b a]
        have e : -x b a + x b d - x a d = -(x b a + x a d - x b d) := by ring
        rw [e]; exact this.neg_right
      · subst h''; rw [hself, hx b a]; simp
      · have := key b d a h' h'' h2 h3.symm h1.symm
        rw [hx b a, hx d a]
        have e : -x b a + x b d - -x d a = (x b d + x d a - x b a) := by ring
        rw [e]; exact this
    · subst h'; rw [hself]; simp
    · have := key d b a h' h h2.symm h1.symm h3.symm
      rw [hx b a, hx d b, hx d a]
      have e : -x b a + -x d b - -x d a = -(x d b + x b a - x d a) := by ring
      rw [e]; exact this.neg_right

/-! ### characters of the integers modulo `p` -/

/-- A character of the integers that is trivial on multiples of `p`. -/
structure IsCharacter {𝕜 : Type} [RCLike 𝕜] (p : ℤ) (χ : ℤ → 𝕜) : Prop where
  add : ∀ a b, χ (a + b) = χ a * χ b
  norm : ∀ a, ‖χ a‖ = 1
  trivial : ∀ a, p ∣ a → χ a = 1

section
variable {𝕜 : Type} [RCLike 𝕜] {p : ℤ} {χ : ℤ → 𝕜} {x : ℕ → ℕ → ℤ} {w : ℕ → ℕ → ℝ} {L : ℕ} {dist dll : ℕ → ℕ → ℝ} {r : ℝ}

theorem IsCharacter.zero (h : IsCharacter p χ) : χ 0 = 1 := h.trivial 0 (dvd_zero _)

theorem IsCharacter.pow (h : IsCharacter p χ) (a : ℤ) (k : ℕ) : χ a ^ k = χ (k * a) := by
  induction k with
  | zero => simp [h.zero]
  | succ k ih => rw [pow_succ, ih, ← h.add]; congr 1; push_cast; ring

theorem IsCharacter.root (h : IsCharacter p χ) (hp : 0 < p) (a : ℤ) : χ a ^ p = 1 := by
  obtain ⟨n, rfl⟩ := Int.eq_ofNat_of_zero_le hp.le
  rw [zpow_natCast, h.pow]
  exact h.trivial _ (dvd_mul_right _ _)

theorem lens_character (hp : 0 < p) : IsCharacter p fun v : ℤ => Complex.exp (2 * π * Complex.I * v / p) := by
  refine ⟨fun a b => ?_, fun a => ?_, ?_⟩
  · rw [← Complex.exp_add]; congr 1; push_cast; ring
  · have : (2 * π * Complex.I * a / p : ℂ) = ((2 * π * a / p : ℝ) : ℂ) * Complex.I := by push_cast; ring
    rw [this, Complex.norm_exp_ofReal_mul_I]
  · rintro a ⟨k, rfl⟩
    rw [Complex.exp_eq_one_iff]
    refine ⟨k, ?_⟩
    have : (p : ℂ) ≠ 0 := by exact_mod_cast hp.ne'
    push_cast
    field_simp

theorem sign_character : IsCharacter (𝕜 := ℝ) 2 fun v : ℤ => (-1 : ℝ) ^ v := by
  refine ⟨fun a b => zpow_add₀ (by norm_num) a b, fun a => by simp, ?_⟩
  rintro a ⟨k, rfl⟩
  rw [zpow_mul]; norm_num

/-- Two balls containing a data point give vectors that differ by a value of the character. -/
theorem charVector_twist (hχ : IsCharacter p χ) (hx : ∀ l m, x m l = -x l m) (ht : LandmarkTriangle L dist dll)
    (hw : IsPartitionOfUnity L dist r w) (hc : PairCocycleMod p L dll (2 * r) x) {l l' i m : ℕ}
    (hl : InBall L dist r l i) (hl' : InBall L dist r l' i) (hm : m < L) :
    ((√(w m i) : ℝ) : 𝕜) * χ (x l' m) = χ (x l' l) * (((√(w m i) : ℝ) : 𝕜) * χ (x l m)) := by
  by_cases hd : dist m i < r
  · have hmi : InBall L dist r m i := ⟨hm, hd⟩
    have h1 := pairCocycle_any hx hc (ripsRel_of_balls ht hl' hl) (ripsRel_of_balls ht hl hmi) (ripsRel_of_balls ht hl' hmi)
    have h2 : χ (x l' l) * χ (x l m) = χ (x l' m) := by
      have : x l' l + x l m = (x l' l + x l m - x l' m) + x l' m := by ring
      rw [← hχ.add, this, hχ.add, hχ.trivial _ h1, one_mul]
    rw [← h2]; ring
  · rw [hw.zero ⟨l, hl⟩ hd]; simp

/-- The vectors have norm one. -/
theorem charVector_norm (hχ : IsCharacter p χ) (hw : IsPartitionOfUnity L dist r w) {l i : ℕ}
    (hl : InBall L dist r l i) :
    ∑ m ∈ Finset.range L, ‖((√(w m i) : ℝ) : 𝕜) * χ (x l m)‖ ^ 2 = 1 := by
  rw [← hw.sum_one i ⟨l, hl⟩]
  apply Finset.sum_congr rfl
  intro m _
  rw [norm_mul, hχ.norm, mul_one, RCLike.norm_ofReal, sq_abs, Real.sq_sqrt (hw.nonneg m i ⟨l, hl⟩)]

end

/-! ### the cocycle matrix -/

/-- The array `s` of a ripser cocycle represents the antisymmetric function `x` of pairs of landmarks. -/
structure RepresentsPairs (s : SparseCochain) (x : ℕ → ℕ → ℤ) : Prop where
  antisymm : ∀ l m, x m l = -x l m
  rows : ∀ r ∈ s, ∃ a b, r.verts = [a, b] ∧ x a b = r.val
  unlisted : ∀ a b, (∀ r ∈ s, r.verts ≠ [a, b] ∧ r.verts ≠ [b, a]) → x a b = 0

section
variable {𝕜 : Type} [RCLike 𝕜] {χ : ℤ → 𝕜} {x : ℕ → ℕ → ℤ}

theorem cocycleMatrix_apply {p : ℤ} (hχ : IsCharacter p χ) {n : ℕ} {fwd bwd : ℤ → 𝕜} (hf : ∀ v, fwd v = χ v)
    (hb : ∀ v, bwd v = χ (-v)) {s : SparseCochain} (hs : RepresentsPairs s x) {M : ℕ → ℕ → 𝕜}
    (h : cocycleMatrix n fwd bwd s = .ok M) (a b : ℕ) : M a b = χ (x a b) := by
  unfold cocycleMatrix at h
  split at h
  · simp only [Except.ok.injEq] at h
    subst h
    rw [foldl_set2 s (fun r => r.verts.getD 1 0) (fun r => r.verts.getD 0 0) (fun r => bwd r.val) fun a b => χ (x a b)]
    · by_cases h1 : ∃ e ∈ s, e.verts.getD 1 0 = a ∧ e.verts.getD 0 0 = b
      · rw [if_pos h1]
      · rw [if_neg h1, foldl_set2 s (fun r => r.verts.getD 0 0) (fun r => r.verts.getD 1 0) (fun r => fwd r.val)
          fun a b => χ (x a b)]
        · by_cases h2 : ∃ e ∈ s, e.verts.getD 0 0 = a ∧ e.verts.getD 1 0 = b
          · rw [if_pos h2]
          · rw [if_neg h2, hs.unlisted, hχ.zero]
            intro r hr
            refine ⟨fun h3 => h2 ⟨r, hr, ?_⟩, fun h3 => h1 ⟨r, hr, ?_⟩⟩
            · rw [h3]; simp
            · rw [h3]; simp
        · intro r hr
          obtain ⟨a, b, h3, h4⟩ := hs.rows r hr
          simp [h3, hf, ← h4]
    · intro r hr
      obtain ⟨a, b, h3, h4⟩ := hs.rows r hr
      simp [h3, hb, ← h4, hs.antisymm a b]
  · cases h

end

/-! ### what a successful call has computed -/

section
variable {𝕜 : Type} [RCLike 𝕜]

theorem flat_success {eigh : Eigh 𝕜} {fuel : ℕ} {matrix : SparseCochain → Except PyErr (ℕ → ℕ → 𝕜)} {k : ℤ}
    {o : ProjObj} {a : ProjArgs} {X : Arr 𝕜} (h : (flatGetCoordinates eigh fuel matrix k o a).2 = .ok X) :
    ∃ b d s radius cov M V, getRepresentativeCocycle o.dgms o.cocycles a.cocycleIdx 1 = .ok (b, d, s) ∧
      getCoverRadius a.perc b d a.standardRange = .ok radius ∧
      getCoveringPartition o.dtype o.nLand o.nData (fun l i => Fl.fin (o.dist l i)) radius.1 a.bump = .ok cov ∧
      matrix s = .ok M ∧ ppca eigh fuel (flatClassMap o.nLand o.nData cov M) k a.mode = .ok ⟨V, X⟩ ∧
      (flatGetCoordinates eigh fuel matrix k o a).1 = { o with radius := some radius, variance := some V } := by
  unfold flatGetCoordinates at h ⊢
  generalize getRepresentativeCocycle o.dgms o.cocycles a.cocycleIdx 1 = e1 at h ⊢
  rcases e1 with e | ⟨b, d, s⟩
  · cases h
  simp only at h ⊢
  generalize h2 : getCoverRadius a.perc b d a.standardRange = e2 at h ⊢
  rcases e2 with e | radius
  · cases h
  simp only at h ⊢
  generalize h3 : getCoveringPartition o.dtype o.nLand o.nData (fun l i => Fl.fin (o.dist l i)) radius.1 a.bump = e3 at h ⊢
  rcases e3 with e | cov
  · cases h
  simp only at h ⊢
  generalize h4 : matrix s = e4 at h ⊢
  rcases e4 with e | M
  · cases h
  simp only at h ⊢
  generalize h5 : ppca eigh fuel (flatClassMap o.nLand o.nData cov M) k a.mode = e5 at h ⊢
  rcases e5 with e | ⟨V, X'⟩
  · cases h
  simp only [Except.ok.injEq] at h ⊢
  subst h
  exact ⟨b, d, s, radius, cov, M, V, rfl, h2, h3, h4, h5, rfl⟩

end

end Dreimac
