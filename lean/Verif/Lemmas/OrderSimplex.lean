import Mathlib.Data.Fin.Tuple.Sort
import Verif.Lemmas.Parity

namespace Dreimac

open Equiv

variable {n : ℕ}

theorem permList_perm (σ : Perm (Fin n)) : (permList σ).Perm (List.range n) := by
  unfold permList
  have h1 : (List.ofFn fun i => ((σ i : Fin n) : ℕ)) = (List.ofFn fun i => σ i).map (fun i : Fin n => (i : ℕ)) := by
    rw [List.map_ofFn]; rfl
  have h2 : List.range n = (List.ofFn fun i : Fin n => i).map (fun i : Fin n => (i : ℕ)) := by
    apply List.ext_getElem <;> simp
  rw [h1, h2]
  apply List.Perm.map
  apply (List.perm_ext_iff_of_nodup _ _).2
  · intro a
    simp only [List.mem_ofFn]
    exact ⟨fun _ => ⟨a, rfl⟩, fun _ => ⟨σ.symm a, by simp⟩⟩
  · exact List.nodup_ofFn.2 σ.injective
  · exact List.nodup_ofFn.2 fun _ _ h => h

theorem ofFn_getD (f : Fin n → ℕ) (i : Fin n) : (List.ofFn f).getD (i : ℕ) 0 = f i := by
  simp [List.getD]

/-- `argsort` of pairwise different keys is the one-line notation of the (unique) sorting permutation. -/
theorem argsort_ofFn (f : Fin n → ℕ) (hf : Function.Injective f) (τ : Perm (Fin n)) (hτ : StrictMono (f ∘ τ)) :
    argsort (List.ofFn f) = permList τ := by
  unfold argsort
  have hlen : (List.ofFn f).length = n := by simp
  rw [hlen]
  set key : ℕ → ℕ := fun i => (List.ofFn f).getD i 0 with hkey
  have hperm : ((List.range n).mergeSort fun i j => decide (key i ≤ key j)).Perm (permList τ) :=
    (List.mergeSort_perm _ _).trans (permList_perm τ).symm
  have hs1 : ((List.range n).mergeSort fun i j => decide (key i ≤ key j)).Pairwise
      (fun i j => decide (key i ≤ key j) = true) := by
    apply List.pairwise_mergeSort
    · intro a b c h1 h2; simp only [decide_eq_true_eq] at *; omega
    · intro a b; simp only [Bool.or_eq_true, decide_eq_true_eq]; omega
  have hs2 : (permList τ).Pairwise (fun i j => decide (key i ≤ key j) = true) := by
    unfold permList
    rw [List.pairwise_ofFn]
    intro i j hij
    simp only [decide_eq_true_eq, hkey]
    rw [ofFn_getD, ofFn_getD]
    exact (hτ hij).le
  refine List.Perm.eq_of_pairwise ?_ hs1 hs2 hperm
  intro a b ha hb h1 h2
  simp only [decide_eq_true_eq] at h1 h2
  have ha' : a < n := by
    have := (List.mergeSort_perm _ _).mem_iff.1 ha
    simpa using this
  have hb' : b < n := by
    have := (permList_perm τ).mem_iff.1 hb
    simpa using this
  have e1 : key a = f ⟨a, ha'⟩ := ofFn_getD f ⟨a, ha'⟩
  have e2 : key b = f ⟨b, hb'⟩ := ofFn_getD f ⟨b, hb'⟩
  have := hf (a₁ := ⟨a, ha'⟩) (a₂ := ⟨b, hb'⟩) (by omega)
  simpa using this

theorem orderSimplex_ofFn (f : Fin n → ℕ) (hf : Function.Injective f) (τ : Perm (Fin n))
    (hτ : StrictMono (f ∘ τ)) :
    orderSimplex (List.ofFn f) = .ok (List.ofFn (f ∘ τ), (Perm.sign τ : ℤ)) := by
  simp only [orderSimplex, argsort_ofFn f hf τ hτ, parity_eq_sign, bind, Except.bind, pure, Except.pure]
  congr 2
  unfold permList
  rw [List.map_ofFn]
  congr 1
  funext i
  simp only [Function.comp]
  exact ofFn_getD f (τ i)

/-- A sorting permutation exists. -/
theorem exists_sorting (f : Fin n → ℕ) (hf : Function.Injective f) : ∃ τ : Perm (Fin n), StrictMono (f ∘ τ) :=
  ⟨Tuple.sort f, (Tuple.monotone_sort f).strictMono_of_injective (hf.comp (Tuple.sort f).injective)⟩

end Dreimac
