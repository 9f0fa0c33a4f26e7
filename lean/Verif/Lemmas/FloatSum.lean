import Verif.Lemmas.Float

/-!
# Forward error bounds for rounded sums of numbers of any sign
-/

namespace Dreimac

open Fl

section
variable {K : Type} [Field K] [LinearOrder K] [IsStrictOrderedRing K] {rnd : K → Fl K}

theorem Fl.round_add_eq_fin {a b : Fl K} {s : K} (h : Fl.round rnd (a + b) = fin s) :
    ∃ x y, a = fin x ∧ b = fin y ∧ rnd (x + y) = fin s := by
  cases a <;> cases b <;> first | (exact absurd h (by intro e; cases e)) | exact ⟨_, _, rfl, rfl, h⟩

theorem SumTree.eval_finite {f : ℕ → Fl K} (t : SumTree) {s : K} (h : t.eval rnd f = fin s) :
    ∀ l ∈ t.leaves, ∃ x, f l = fin x := by
  induction t generalizing s with
  | leaf l => intro k hk; simp only [leaves, List.mem_singleton] at hk; subst hk; exact ⟨s, h⟩
  | node a b iha ihb =>
    obtain ⟨x, y, hx, hy, -⟩ := Fl.round_add_eq_fin h
    intro l hl
    simp only [leaves, List.mem_append] at hl
    exact hl.elim (iha hx l) (ihb hy l)

/-- If no addition overflows, the computed sum differs from the sum by at most `(1 + u)^(n-1) - 1` times the sum of absolute
values. -/
theorem SumTree.eval_error_abs (R : Rounding rnd) {u eta : K} (E : ErrorBound rnd u eta) (hu : 0 ≤ u) (f : ℕ → K)
    (hm : ∀ l, Machine rnd (f l)) (t : SumTree) {s : K} (h : t.eval rnd (fun l => fin (f l)) = fin s) :
    Machine rnd s ∧
      |s - (t.leaves.map f).sum| ≤ ((1 + u) ^ (t.leaves.length - 1) - 1) * (t.leaves.map fun l => |f l|).sum := by
  induction t generalizing s with
  | leaf l => simp only [eval] at h; injection h with h; subst h; exact ⟨hm l, by simp [leaves]⟩
  | node a b iha ihb =>
    obtain ⟨x, y, hx, hy, hs⟩ := Fl.round_add_eq_fin h
    obtain ⟨mx, ex⟩ := iha hx
    obtain ⟨my, ey⟩ := ihb hy
    refine ⟨R.idem _ _ hs, ?_⟩
    have es := E.sum x y s mx my hs
    simp only [leaves, List.length_append, List.map_append, List.sum_append]
    have la := a.length_pos
    have lb := b.length_pos
    have abs_sum : ∀ t : SumTree, |(t.leaves.map f).sum| ≤ (t.leaves.map fun l => |f l|).sum := by
      intro t
      induction t.leaves with
      | nil => simp
      | cons k l ih => simp only [List.map_cons, List.sum_cons]; exact (abs_add_le _ _).trans (by linarith)
    have sa := abs_sum a
    have sb := abs_sum b
    generalize (a.leaves.map fun l => |f l|).sum = S1 at *
    generalize (b.leaves.map fun l => |f l|).sum = S2 at *
    generalize (a.leaves.map f).sum = T1 at *
    generalize (b.leaves.map f).sum = T2 at *
    have n1 : 0 ≤ S1 := (abs_nonneg _).trans sa
    have n2 : 0 ≤ S2 := (abs_nonneg _).trans sb
    have xa : |x| ≤ (1 + u) ^ (a.leaves.length - 1) * S1 := by
      have := abs_sub_abs_le_abs_sub x T1; linarith
    have yb : |y| ≤ (1 + u) ^ (b.leaves.length - 1) * S2 := by
      have := abs_sub_abs_le_abs_sub y T2; linarith
    have h1u : (1 : K) ≤ 1 + u := by linarith
    have pa : (1 + u) * (1 + u) ^ (a.leaves.length - 1) ≤ (1 + u) ^ (a.leaves.length + b.leaves.length - 1) := by
      rw [← pow_succ']; exact pow_le_pow_right₀ h1u (by omega)
    have pb : (1 + u) * (1 + u) ^ (b.leaves.length - 1) ≤ (1 + u) ^ (a.leaves.length + b.leaves.length - 1) := by
      rw [← pow_succ']; exact pow_le_pow_right₀ h1u (by omega)
    generalize (1 + u) ^ (a.leaves.length - 1) = A at *
    generalize (1 + u) ^ (b.leaves.length - 1) = B at *
    generalize (1 + u) ^ (a.leaves.length + b.leaves.length - 1) = P at *
    have e1 : |s - (T1 + T2)| ≤ |s - (x + y)| + |x - T1| + |y - T2| := by
      have : s - (T1 + T2) = (s - (x + y)) + (x - T1) + (y - T2) := by ring
      rw [this]; exact (abs_add_le _ _).trans (add_le_add_left (abs_add_le _ _) _)
    have e2 : u * |x + y| ≤ u * (|x| + |y|) := mul_le_mul_of_nonneg_left (abs_add_le _ _) hu
    have e3 : u * (|x| + |y|) ≤ u * (A * S1 + B * S2) := mul_le_mul_of_nonneg_left (by linarith) hu
    have e4 := mul_le_mul_of_nonneg_right pa n1
    have e5 := mul_le_mul_of_nonneg_right pb n2
    linarith

/-- A rounded sum of rounded values `g l` of the numbers `f l`. -/
theorem SumTree.eval_round_error (R : Rounding rnd) {u eta : K} (E : ErrorBound rnd u eta) (hu : 0 ≤ u)
    (f : ℕ → K) (t : SumTree) {d : ℕ} (ht : t.leaves.Perm (List.range d)) {s : K}
    (h : t.eval rnd (fun l => rnd (f l)) = fin s) :
    Machine rnd s ∧ |s - ∑ l ∈ Finset.range d, f l| ≤
      ((1 + u) ^ d - 1) * (∑ l ∈ Finset.range d, |f l|) + d * (1 + u) ^ (d - 1) * eta := by
  classical
  have hfin := t.eval_finite h
  let g : ℕ → K := fun l => match rnd (f l) with | fin x => x | _ => 0
  have hg : ∀ l, Machine rnd (g l) := by
    intro l
    simp only [g]
    cases e : rnd (f l) with
    | fin x => exact R.idem _ _ e
    | _ => exact R.zero
  have hfg : ∀ l ∈ t.leaves, rnd (f l) = fin (g l) := by
    intro l hl
    obtain ⟨x, hx⟩ := hfin l hl
    simp only [g, hx]
  have heval : ∀ (t : SumTree), (∀ l ∈ t.leaves, rnd (f l) = fin (g l)) →
      t.eval rnd (fun l => rnd (f l)) = t.eval rnd (fun l => fin (g l)) := by
    intro t
    induction t with
    | leaf l => intro h; exact h l (by simp [leaves])
    | node a b iha ihb =>
      intro h
      simp only [leaves, List.mem_append] at h
      simp only [eval, iha (fun l hl => h l (.inl hl)), ihb (fun l hl => h l (.inr hl))]
  rw [heval t hfg] at h
  obtain ⟨ms, es⟩ := t.eval_error_abs R E hu g hg h
  refine ⟨ms, ?_⟩
  rw [sum_leaves g ht, sum_leaves _ ht] at es
  have hlen : t.leaves.length = d := by rw [ht.length_eq, List.length_range]
  have hd : 0 < d := hlen ▸ t.length_pos
  rw [hlen] at es
  have hgl : ∀ l ∈ Finset.range d, |g l - f l| ≤ u * |f l| + eta := by
    intro l hl
    exact E.all _ _ (hfg l (ht.mem_iff.2 (List.mem_range.2 (Finset.mem_range.1 hl))))
  have h1 : |∑ l ∈ Finset.range d, g l - ∑ l ∈ Finset.range d, f l| ≤ u * (∑ l ∈ Finset.range d, |f l|) + d * eta := by
    rw [← Finset.sum_sub_distrib]
    calc _ ≤ ∑ l ∈ Finset.range d, |g l - f l| := Finset.abs_sum_le_sum_abs _ _
      _ ≤ ∑ l ∈ Finset.range d, (u * |f l| + eta) := Finset.sum_le_sum hgl
      _ = _ := by rw [Finset.sum_add_distrib, ← Finset.mul_sum]; simp
  have h2 : ∑ l ∈ Finset.range d, |g l| ≤ (1 + u) * (∑ l ∈ Finset.range d, |f l|) + d * eta := by
    calc _ ≤ ∑ l ∈ Finset.range d, ((1 + u) * |f l| + eta) := Finset.sum_le_sum fun l hl => by
            have := hgl l hl; have := abs_sub_abs_le_abs_sub (g l) (f l); linarith
      _ = _ := by rw [Finset.sum_add_distrib, ← Finset.mul_sum]; simp
  have hp : (1 + u) ^ d = (1 + u) ^ (d - 1) * (1 + u) := by rw [← pow_succ]; congr 1; omega
  rw [hp]
  have hP : (1 : K) ≤ (1 + u) ^ (d - 1) := one_le_pow₀ (by linarith)
  generalize (1 + u) ^ (d - 1) = P at *
  generalize ∑ l ∈ Finset.range d, |f l| = F at *
  have h3 := mul_le_mul_of_nonneg_left h2 (by linarith : 0 ≤ P - 1)
  have h4 := abs_sub_le s (∑ l ∈ Finset.range d, g l) (∑ l ∈ Finset.range d, f l)
  nlinarith

/-- Between `-b` and `b` the result is finite and stays there. -/
theorem Rounding.abs_between (R : Rounding rnd) {b x : K} (mb : Machine rnd b) (h : |x| ≤ b) :
    ∃ y, rnd x = fin y ∧ |y| ≤ b ∧ Machine rnd y := by
  obtain ⟨y, hy, h1, h2, my⟩ := R.between (R.machine_neg mb) mb (abs_le.1 h).1 (abs_le.1 h).2
  exact ⟨y, hy, abs_le.2 ⟨h1, h2⟩, my⟩

/-- A sum of machine numbers of absolute value at most `b` does not overflow if `(1 + u)^(n-1) n b` is below some machine
number. -/
theorem SumTree.eval_bounded (R : Rounding rnd) {u eta : K} (E : ErrorBound rnd u eta) (hu : 0 ≤ u) (f : ℕ → K)
    {b : K} (b0 : 0 ≤ b) {B : K} (mB : Machine rnd B) (t : SumTree) (hm : ∀ l ∈ t.leaves, Machine rnd (f l))
    (hb : ∀ l ∈ t.leaves, |f l| ≤ b) (hB : (1 + u) ^ (t.leaves.length - 1) * (t.leaves.length * b) ≤ B) :
    ∃ s, t.eval rnd (fun l => fin (f l)) = fin s ∧ Machine rnd s ∧ |s| ≤ (1 + u) ^ (t.leaves.length - 1) * (t.leaves.length * b) := by
  induction t with
  | leaf l => exact ⟨f l, rfl, hm l (by simp [leaves]), by simpa [leaves] using hb l (by simp [leaves])⟩
  | node a c iha ihc =>
    simp only [leaves, List.length_append, List.mem_append] at hB hm hb ⊢
    have la := a.length_pos
    have lc := c.length_pos
    have h1u : (1 : K) ≤ 1 + u := by linarith
    have pa : (1 + u) * (1 + u) ^ (a.leaves.length - 1) ≤ (1 + u) ^ (a.leaves.length + c.leaves.length - 1) := by
      rw [← pow_succ']; exact pow_le_pow_right₀ h1u (by omega)
    have pc : (1 + u) * (1 + u) ^ (c.leaves.length - 1) ≤ (1 + u) ^ (a.leaves.length + c.leaves.length - 1) := by
      rw [← pow_succ']; exact pow_le_pow_right₀ h1u (by omega)
    have p1 : (0 : K) ≤ (1 + u) ^ (a.leaves.length - 1) := by positivity
    have p2 : (0 : K) ≤ (1 + u) ^ (c.leaves.length - 1) := by positivity
    push_cast at hB ⊢
    have na : 0 ≤ (a.leaves.length : K) * b := by positivity
    have nc : 0 ≤ (c.leaves.length : K) * b := by positivity
    generalize (1 + u) ^ (a.leaves.length + c.leaves.length - 1) = P at *
    generalize (1 + u) ^ (a.leaves.length - 1) = A at *
    generalize (1 + u) ^ (c.leaves.length - 1) = C at *
    have e1 : A * (a.leaves.length * b) * (1 + u) ≤ P * (a.leaves.length * b) := by
      have := mul_le_mul_of_nonneg_right pa na; linarith
    have e2 : C * (c.leaves.length * b) * (1 + u) ≤ P * (c.leaves.length * b) := by
      have := mul_le_mul_of_nonneg_right pc nc; linarith
    generalize (a.leaves.length : K) = la' at *
    generalize (c.leaves.length : K) = lc' at *
    have n1 : 0 ≤ A * (la' * b) := mul_nonneg p1 na
    have n2 : 0 ≤ C * (lc' * b) := mul_nonneg p2 nc
    have u1 := mul_nonneg n1 hu
    have u2 := mul_nonneg n2 hu
    obtain ⟨s, hs, ms, bs⟩ := iha (fun l hl => hm l (.inl hl)) (fun l hl => hb l (.inl hl)) (by linarith)
    obtain ⟨r, hr, mr, br⟩ := ihc (fun l hl => hm l (.inr hl)) (fun l hl => hb l (.inr hl)) (by linarith)
    have hsr : |s + r| ≤ A * (la' * b) + C * (lc' * b) := (abs_add_le _ _).trans (by linarith)
    obtain ⟨y, hy, -, my⟩ := R.abs_between mB (hsr.trans (by linarith))
    have ey := E.sum s r y ms mr hy
    refine ⟨y, by simp only [eval, hs, hr, fin_add, round_fin, hy], my, ?_⟩
    have := abs_sub_abs_le_abs_sub y (s + r)
    have := mul_le_mul_of_nonneg_left hsr hu
    linarith

end

end Dreimac
