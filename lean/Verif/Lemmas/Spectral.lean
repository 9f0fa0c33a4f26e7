import Mathlib.Analysis.RCLike.Basic
import Mathlib.LinearAlgebra.Matrix.Rank
import Mathlib.LinearAlgebra.Matrix.ConjTranspose
import Mathlib.LinearAlgebra.Matrix.Trace
import Mathlib.LinearAlgebra.Matrix.NonsingularInverse
import Mathlib.Data.Matrix.Diagonal
import Mathlib.Tactic.Linarith
import Mathlib.Tactic.Ring
import Mathlib.Tactic.LinearCombination

/-! # Principal directions of a matrix of data vectors (used for C103, C104)

`X` holds one data vector per column, `V` an orthonormal basis of eigenvectors of `X Xᴴ` with eigenvalues `mu`. -/

namespace Dreimac

open Matrix

section spectral
variable {𝕜 : Type} [RCLike 𝕜] {d N m r : ℕ}

theorem star_mul_self_rclike (x : 𝕜) : star x * x = ((‖x‖ ^ 2 : ℝ) : 𝕜) := by
  have := RCLike.conj_mul x
  rw [starRingEnd_apply] at this
  rw [this]; norm_cast

theorem self_mul_star_rclike (x : 𝕜) : x * star x = ((‖x‖ ^ 2 : ℝ) : 𝕜) := by
  rw [mul_comm, star_mul_self_rclike]

/-- Diagonal entries of `A Aᴴ`. -/
theorem mul_conjTranspose_diag (A : Matrix (Fin m) (Fin N) 𝕜) (k : Fin m) :
    (A * Aᴴ) k k = ((∑ n, ‖A k n‖ ^ 2 : ℝ) : 𝕜) := by
  rw [Matrix.mul_apply, RCLike.ofReal_sum]
  exact Finset.sum_congr rfl fun n _ => by rw [conjTranspose_apply, self_mul_star_rclike]

theorem conjTranspose_mul_diag (A : Matrix (Fin m) (Fin N) 𝕜) (k : Fin N) :
    (Aᴴ * A) k k = ((∑ n, ‖A n k‖ ^ 2 : ℝ) : 𝕜) := by
  rw [Matrix.mul_apply, RCLike.ofReal_sum]
  exact Finset.sum_congr rfl fun n _ => by rw [conjTranspose_apply, star_mul_self_rclike]

variable {X : Matrix (Fin d) (Fin N) 𝕜} {V : Matrix (Fin d) (Fin d) 𝕜} {mu : Fin d → ℝ}

theorem spectral_diag (hV : Vᴴ * V = 1) (hG : X * Xᴴ * V = V * diagonal fun k => (mu k : 𝕜)) :
    (Vᴴ * X) * (Vᴴ * X)ᴴ = diagonal fun k => (mu k : 𝕜) := by
  rw [conjTranspose_mul, conjTranspose_conjTranspose]
  calc Vᴴ * X * (Xᴴ * V) = Vᴴ * (X * Xᴴ * V) := by simp only [Matrix.mul_assoc]
    _ = diagonal fun k => (mu k : 𝕜) := by rw [hG, ← Matrix.mul_assoc, hV, Matrix.one_mul]

/-- The eigenvalues are the energies of the data along the eigenvectors. -/
theorem spectral_energy (hV : Vᴴ * V = 1) (hG : X * Xᴴ * V = V * diagonal fun k => (mu k : 𝕜)) (k : Fin d) :
    mu k = ∑ n, ‖(Vᴴ * X) k n‖ ^ 2 := by
  have h := congrFun (congrFun (spectral_diag hV hG) k) k
  rw [mul_conjTranspose_diag, diagonal_apply_eq] at h
  exact_mod_cast h.symm

/-- If the data lie in the span of `r` vectors, all eigenvalues but the `r` greatest vanish. -/
theorem spectral_rank (hV : Vᴴ * V = 1) (hG : X * Xᴴ * V = V * diagonal fun k => (mu k : 𝕜)) (hmu : Antitone mu)
    (W : Matrix (Fin d) (Fin r) 𝕜) (C : Matrix (Fin r) (Fin N) 𝕜) (hX : X = W * C) (k : Fin d) (hk : r ≤ k) : mu k = 0 := by
  by_contra hne
  have hpos : 0 < mu k := by
    refine lt_of_le_of_ne ?_ (Ne.symm hne)
    rw [spectral_energy hV hG]
    exact Finset.sum_nonneg fun n _ => by positivity
  have hrank : (diagonal fun k => (mu k : 𝕜)).rank ≤ r := by
    rw [← spectral_diag hV hG]
    have e : Vᴴ * X * (Vᴴ * X)ᴴ = (Vᴴ * W) * (C * (Vᴴ * X)ᴴ) := by
      conv_lhs => rw [show Vᴴ * X = Vᴴ * W * C by rw [hX, Matrix.mul_assoc]]
      rw [Matrix.mul_assoc]
      rw [hX, ← Matrix.mul_assoc Vᴴ W C]
    rw [e]
    refine (Matrix.rank_mul_le_left _ _).trans ?_
    simpa using Matrix.rank_le_width (Vᴴ * W)
  rw [Matrix.rank_diagonal] at hrank
  have : Fintype.card (Fin (k.val + 1)) ≤ Fintype.card {i // (mu i : 𝕜) ≠ 0} := by
    refine Fintype.card_le_of_injective
      (fun i : Fin (k.val + 1) => ⟨⟨i.val, by omega⟩, ?_⟩) ?_
    · have h1 : mu k ≤ mu ⟨i.val, by omega⟩ := hmu (by rw [Fin.le_def]; simp; omega)
      have : mu ⟨i.val, by omega⟩ ≠ 0 := by linarith
      exact_mod_cast this
    · intro i j h
      simp only [Subtype.mk.injEq, Fin.mk.injEq] at h
      exact Fin.ext h
  rw [Fintype.card_fin] at this
  omega

theorem spectral_lossless (hV : Vᴴ * V = 1) (hG : X * Xᴴ * V = V * diagonal fun k => (mu k : 𝕜)) (hmu : Antitone mu)
    (W : Matrix (Fin d) (Fin r) 𝕜) (C : Matrix (Fin r) (Fin N) 𝕜) (hX : X = W * C) (k : Fin d) (hk : r ≤ k) (n : Fin N) :
    (Vᴴ * X) k n = 0 := by
  have h0 := spectral_rank hV hG hmu W C hX k hk
  rw [spectral_energy hV hG, Finset.sum_eq_zero_iff_of_nonneg (fun n _ => by positivity)] at h0
  have := h0 n (Finset.mem_univ n)
  simpa using this

/-- The diagonal of a projection is at most one. -/
theorem projection_diag_le (B : Matrix (Fin d) (Fin m) 𝕜) (hB : Bᴴ * B = 1) (k : Fin d) : ∑ j, ‖B k j‖ ^ 2 ≤ 1 := by
  have hP : (B * Bᴴ) * (B * Bᴴ)ᴴ = B * Bᴴ := by
    rw [conjTranspose_mul, conjTranspose_conjTranspose]
    calc B * Bᴴ * (B * Bᴴ) = B * (Bᴴ * B) * Bᴴ := by simp only [Matrix.mul_assoc]
      _ = B * Bᴴ := by rw [hB, Matrix.mul_one]
  have h1 := congrFun (congrFun hP k) k
  rw [mul_conjTranspose_diag, mul_conjTranspose_diag] at h1
  have h1 : ∑ j, ‖(B * Bᴴ) k j‖ ^ 2 = ∑ j, ‖B k j‖ ^ 2 := by exact_mod_cast h1
  have h2 : ‖(B * Bᴴ) k k‖ ^ 2 ≤ ∑ j, ‖(B * Bᴴ) k j‖ ^ 2 :=
    Finset.single_le_sum (f := fun j => ‖(B * Bᴴ) k j‖ ^ 2) (fun j _ => by positivity) (Finset.mem_univ k)
  rw [mul_conjTranspose_diag, RCLike.norm_ofReal, sq_abs, h1] at h2
  have h0 : 0 ≤ ∑ j, ‖B k j‖ ^ 2 := Finset.sum_nonneg fun j _ => by positivity
  generalize ∑ j, ‖B k j‖ ^ 2 = c at h2 h0
  by_contra hc
  nlinarith

/-- Ky Fan's inequality: no `m` orthonormal vectors capture more energy than the first `m` eigenvectors. -/
theorem spectral_optimal (hV : Vᴴ * V = 1) (hG : X * Xᴴ * V = V * diagonal fun k => (mu k : 𝕜)) (hmu : Antitone mu)
    (W : Matrix (Fin d) (Fin m) 𝕜) (hW : Wᴴ * W = 1) (hm : m ≤ d) :
    ∑ j, ∑ n, ‖(Wᴴ * X) j n‖ ^ 2 ≤ ∑ j : Fin m, ∑ n, ‖(Vᴴ * X) (Fin.castLE hm j) n‖ ^ 2 := by
  have hV' : V * Vᴴ = 1 := mul_eq_one_comm.1 hV
  set B := Vᴴ * W with hBdef
  have hBB : Bᴴ * B = 1 := by
    rw [hBdef, conjTranspose_mul, conjTranspose_conjTranspose]
    calc Wᴴ * V * (Vᴴ * W) = Wᴴ * (V * Vᴴ) * W := by simp only [Matrix.mul_assoc]
      _ = 1 := by rw [hV', Matrix.mul_one, hW]
  have hle := projection_diag_le B hBB
  have hsum : ∑ k, ∑ j, ‖B k j‖ ^ 2 = m := by
    rw [Finset.sum_comm]
    have : ∀ j, ∑ k, ‖B k j‖ ^ 2 = 1 := by
      intro j
      have := congrFun (congrFun hBB j) j
      rw [conjTranspose_mul_diag, Matrix.one_apply_eq] at this
      exact_mod_cast this
    rw [Finset.sum_congr rfl fun j _ => this j]
    simp
  have henergy : ∑ j, ∑ n, ‖(Wᴴ * X) j n‖ ^ 2 = ∑ k, mu k * ∑ j, ‖B k j‖ ^ 2 := by
    have hWX : Wᴴ * X = Bᴴ * (Vᴴ * X) := by
      rw [hBdef, conjTranspose_mul, conjTranspose_conjTranspose, Matrix.mul_assoc, ← Matrix.mul_assoc V, hV', Matrix.one_mul]
    have hj : ∀ j, ∑ n, ‖(Wᴴ * X) j n‖ ^ 2 = ∑ k, mu k * ‖B k j‖ ^ 2 := by
      intro j
      have h1 := mul_conjTranspose_diag (Wᴴ * X) j
      have h2 : (Wᴴ * X) * (Wᴴ * X)ᴴ = Bᴴ * (diagonal fun k => (mu k : 𝕜)) * B := by
        rw [← spectral_diag hV hG, hWX]
        simp only [conjTranspose_mul, conjTranspose_conjTranspose, Matrix.mul_assoc]
      rw [h2, Matrix.mul_apply] at h1
      have h3 : ∀ k, (Bᴴ * diagonal fun k => (mu k : 𝕜)) j k * B k j = ((mu k * ‖B k j‖ ^ 2 : ℝ) : 𝕜) := by
        intro k
        rw [Matrix.mul_diagonal, conjTranspose_apply, RCLike.ofReal_mul, ← star_mul_self_rclike]
        ring
      rw [Finset.sum_congr rfl fun k _ => h3 k, ← RCLike.ofReal_sum] at h1
      exact_mod_cast h1.symm
    rw [Finset.sum_congr rfl fun j _ => hj j, Finset.sum_comm]
    exact Finset.sum_congr rfl fun k _ => by rw [Finset.mul_sum]
  rw [henergy]
  have hr : ∀ j : Fin m, ∑ n, ‖(Vᴴ * X) (Fin.castLE hm j) n‖ ^ 2 = mu (Fin.castLE hm j) := fun j => (spectral_energy hV hG _).symm
  rw [Finset.sum_congr rfl fun j _ => hr j]
  have hind : ∑ j : Fin m, mu (Fin.castLE hm j) = ∑ k : Fin d, if k.val < m then mu k else 0 := by
    rw [← Finset.sum_filter]
    refine Finset.sum_bij (fun j _ => Fin.castLE hm j) ?_ ?_ ?_ ?_
    · intro j _; simp
    · intro a _ b _ h; exact Fin.castLE_injective hm h
    · intro k hk
      refine ⟨⟨k, by simpa using hk⟩, Finset.mem_univ _, rfl⟩
    · intro j _; rfl
  rw [hind]
  have hcount : (∑ k : Fin d, if k.val < m then (1 : ℝ) else 0) = m := by
    rw [← Finset.sum_filter]
    have : (Finset.univ.filter fun k : Fin d => k.val < m).card = m := by
      rw [← Fintype.card_subtype]
      have := Fintype.card_congr (Equiv.ofBijective (fun j : Fin m => (⟨Fin.castLE hm j, by simp⟩ : {k : Fin d // k.val < m}))
        ⟨fun a b h => Fin.castLE_injective hm (congrArg Subtype.val h), fun k => ⟨⟨k.1, k.2⟩, rfl⟩⟩)
      rw [← this, Fintype.card_fin]
    simp [this]
  generalize hc : (fun k => ∑ j, ‖B k j‖ ^ 2) = c at *
  have hc' : ∀ k, ∑ j, ‖B k j‖ ^ 2 = c k := fun k => congrFun hc k
  have hc0 : ∀ k, 0 ≤ c k := fun k => by rw [← hc']; exact Finset.sum_nonneg fun j _ => by positivity
  simp only [hc'] at hle hsum ⊢
  rcases Nat.eq_zero_or_pos d with rfl | hd
  · simp
  -- threshold value
  obtain ⟨t, ht1, ht2⟩ : ∃ t : ℝ, (∀ k : Fin d, k.val < m → t ≤ mu k) ∧ ∀ k : Fin d, ¬ k.val < m → mu k ≤ t := by
    rcases Nat.lt_or_ge m d with h | h
    · exact ⟨mu ⟨m, h⟩, fun k hk => hmu (Fin.le_def.2 (by simp; omega)), fun k hk => hmu (Fin.le_def.2 (by simp; omega))⟩
    · refine ⟨mu ⟨d - 1, by omega⟩, fun k hk => hmu (Fin.le_def.2 (by simp; omega)), fun k hk => absurd k.isLt (by omega)⟩
  have key : ∀ k : Fin d, mu k * c k ≤ (if k.val < m then mu k else 0) + t * (c k - if k.val < m then 1 else 0) := by
    intro k
    split
    · rename_i h
      have := ht1 k h
      nlinarith [hle k]
    · rename_i h
      have := ht2 k h
      nlinarith [hc0 k]
  calc ∑ k, mu k * c k ≤ ∑ k : Fin d, ((if k.val < m then mu k else 0) + t * (c k - if k.val < m then 1 else 0)) :=
        Finset.sum_le_sum fun k _ => key k
    _ = _ := by
      rw [Finset.sum_add_distrib, ← Finset.mul_sum, Finset.sum_sub_distrib, hsum, hcount]
      ring

end spectral

end Dreimac
