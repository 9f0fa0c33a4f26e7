import Verif.Lemmas.OrderSimplex
import Verif.Lemmas.Combinatorial
import Verif.Props.Combinatorial

namespace Dreimac

open Equiv

/-- A row lists the vertices of a `d`-simplex on `n` vertices, in any order. -/
structure Row.Valid (n d : ℕ) (r : Row) : Prop where
  card : r.verts.length = d + 1
  nodup : r.verts.Nodup
  vertices : ∀ v ∈ r.verts, v < n

theorem isSimplex_of_sorting {n d : ℕ} {f : Fin (d + 1) → ℕ} {τ : Perm (Fin (d + 1))} (hn : ∀ i, f i < n)
    (hτ : StrictMono (f ∘ τ)) : IsSimplex n d (List.ofFn (f ∘ τ)) where
  card := by simp
  increasing := by
    rw [List.pairwise_ofFn]
    intro i j hij; exact hτ hij
  vertices := by
    intro v hv
    rw [List.mem_ofFn] at hv
    obtain ⟨i, rfl⟩ := hv
    exact hn _

theorem ofFn_comp_perm {d : ℕ} (f : Fin d → ℕ) (τ : Perm (Fin d)) :
    (List.ofFn (f ∘ τ)).Perm (List.ofFn f) := by
  have h1 : List.ofFn (f ∘ τ) = (permList τ).map fun i => (List.ofFn f).getD i 0 := by
    unfold permList
    rw [List.map_ofFn]
    congr 1
    funext i
    exact (ofFn_getD f (τ i)).symm
  have h2 : List.ofFn f = (List.range d).map fun i => (List.ofFn f).getD i 0 := by
    apply List.ext_getElem
    · simp
    · intro i h1 h2
      have hi : i < d := by simpa using h1
      simp [hi]
  rw [h1]
  refine ((permList_perm τ).map _).trans ?_
  rw [← h2]

theorem Row.Valid.exists_ofFn {n d : ℕ} {r : Row} (h : r.Valid n d) :
    ∃ f : Fin (d + 1) → ℕ, r.verts = List.ofFn f ∧ Function.Injective f ∧ ∀ i, f i < n := by
  refine ⟨fun i => r.verts[i]'(by rw [h.card]; exact i.2), ?_, ?_, ?_⟩
  · apply List.ext_getElem
    · simp [h.card]
    · intro i h1 h2; rw [List.getElem_ofFn]; rfl
  · intro i j hij
    simp only at hij
    have := (List.Nodup.getElem_inj_iff h.nodup).1 hij
    exact Fin.ext this
  · intro i; exact h.vertices _ (List.getElem_mem _)

theorem storeRow_ofFn {n d N D : ℕ} (hn : n ≤ N) (hd : d ≤ D) {r : Row} {f : Fin (d + 1) → ℕ}
    {τ : Perm (Fin (d + 1))} (hr : r.verts = List.ofFn f) (hf : Function.Injective f) (hfn : ∀ i, f i < n)
    (hτ : StrictMono (f ∘ τ)) (vec : List ℤ) (hvec : vec.length = Nat.choose n (d + 1)) :
    storeRow (cnsTable N D) vec r = .ok (vec.set (cnsForward (List.ofFn (f ∘ τ)) (cnsTable N D))
      (r.val * (Perm.sign τ : ℤ))) := by
  have hlt := (C01_simplex_index_bijective N D n d hn hd).mapsTo (isSimplex_of_sorting hfn hτ)
  simp only [Set.mem_Iio] at hlt
  simp only [storeRow, hr, orderSimplex_ofFn f hf τ hτ, bind, Except.bind, hvec, hlt, if_true]

theorem fold_storeRow {n d N D : ℕ} (hn : n ≤ N) (hd : d ≤ D) (c : SparseCochain)
    (hvalid : ∀ r ∈ c, r.Valid n d) (hdist : c.Pairwise fun r r' => ¬ r.verts.Perm r'.verts)
    (vec : List ℤ) (hvec : vec.length = Nat.choose n (d + 1)) :
    ∃ vec', c.foldlM (storeRow (cnsTable N D)) vec = .ok vec' ∧ vec'.length = Nat.choose n (d + 1) ∧
      (∀ s, IsSimplex n d s → (∀ r ∈ c, ¬ r.verts.Perm s) →
        vec'[cnsForward s (cnsTable N D)]? = vec[cnsForward s (cnsTable N D)]?) ∧
      (∀ r ∈ c, ∀ (f : Fin (d + 1) → ℕ) (τ : Perm (Fin (d + 1))), r.verts = List.ofFn f → StrictMono (f ∘ τ) →
        vec'[cnsForward (List.ofFn (f ∘ τ)) (cnsTable N D)]? = some (r.val * (Perm.sign τ : ℤ))) := by
  have hbij := C01_simplex_index_bijective N D n d hn hd
  induction c generalizing vec with
  | nil => exact ⟨vec, rfl, hvec, fun _ _ _ => rfl, by simp⟩
  | cons r c ih =>
    rw [List.pairwise_cons] at hdist
    obtain ⟨f, hr, hf, hfn⟩ := (hvalid r (by simp)).exists_ofFn
    obtain ⟨τ, hτ⟩ := exists_sorting f hf
    have hkey := isSimplex_of_sorting hfn hτ
    have hlt := hbij.mapsTo hkey
    simp only [Set.mem_Iio] at hlt
    have hperm : r.verts.Perm (List.ofFn (f ∘ τ)) := by rw [hr]; exact (ofFn_comp_perm f τ).symm
    obtain ⟨vec', h1, h2, h3, h4⟩ := ih (fun r' hr' => hvalid r' (by simp [hr'])) hdist.2
      (vec.set (cnsForward (List.ofFn (f ∘ τ)) (cnsTable N D)) (r.val * (Perm.sign τ : ℤ))) (by simpa using hvec)
    refine ⟨vec', ?_, h2, ?_, ?_⟩
    · rw [List.foldlM_cons, storeRow_ofFn hn hd hr hf hfn hτ vec hvec]
      exact h1
    · intro s hs hns
      rw [h3 s hs (fun r' hr' => hns r' (by simp [hr'])), List.getElem?_set_ne]
      intro heq
      have : List.ofFn (f ∘ τ) = s := hbij.injOn hkey hs heq
      exact hns r (by simp) (this ▸ hperm)
    · intro r' hr' f' τ' hrf hτ'
      rcases List.mem_cons.1 hr' with rfl | hr'
      · have hff : f' = f := by
          have := hrf.symm.trans hr
          exact List.ofFn_injective this
        subst hff
        have hττ : τ' = τ := by
          have e1 := orderSimplex_ofFn f' hf τ hτ
          have e2 := argsort_ofFn f' hf τ' hτ'
          rw [argsort_ofFn f' hf τ hτ] at e2
          have := List.ofFn_injective e2
          ext i; exact (congrFun this i).symm
        subst hττ
        rw [h3 _ hkey, List.getElem?_set_self (by rw [hvec]; exact hlt)]
        intro r'' hr'' hp
        exact hdist.1 r'' hr'' (hperm.trans hp.symm)
      · exact h4 r' hr' f' τ' hrf hτ'

end Dreimac
