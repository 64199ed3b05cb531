import Verif.Props.EkfGenRedP

/-!
A common first factor of several terms, and the blocks of the propagated covariance.
-/

namespace Verif.Props.EkfGen

open Verif.Model.Symb Verif.Model.Symb.Blk Verif.Model.EkfGen Verif.Spec.Symb Verif.Spec.EkfGen Verif.Lemmas.Symb
open Verif.Props.Symb

variable {C : Cfg}

/-! ### A common first factor -/

section
variable {N k : ℕ} {a b : Dim} {L U : List Blk}

/-- A term with a factor in front. -/
def pre (k : ℕ) (a b : Dim) (t : Blk) : Blk := .mul false false a b (atom (.sym k) a a :: t.mulTerms)

theorem pre_mk (h : 2 ≤ L.length) : pre k a b (mk a b L) = .mul false false a b [atom (.sym k) a a, .add false a b L] := by
  rw [mk_two h]
  rfl

theorem strip_mk (hne : (a, b) ≠ one1) (haa : (a, a) ≠ one1) {s : List Blk} (hs : s ≠ [])
    (h1 : ∀ t ∈ s, guardFirst (pre k a b t) = some (atom (.sym k) a a, t)) :
    guardFirst (pre k a b (mk a b s)) = some (atom (.sym k) a a, mk a b s) := by
  match s, hs with
  | [t], _ => exact h1 t (by simp)
  | t :: u :: l, _ =>
    show guardFirst (.mul false false a b [atom (.sym k) a a, .add false a b (t :: u :: l)]) = _
    rw [guardFirst, atom_scalar haa, add_scalar hne]
    rfl

theorem head_pre (haa : (a, a) ≠ one1) (t : Blk) :
    (nonScalar (atom (.sym k) a a :: t.mulTerms)).head? = some (atom (.sym k) a a) := by
  rw [nonScalar_cons_f (atom_scalar haa)]
  rfl

/-- The terms with the factor become one product. -/
theorem merge_loop {rec : Blk → Option Blk} (hne : (a, b) ≠ one1) (haa : (a, a) ≠ one1) (hT : Terms a b L)
    (h1 : ∀ t ∈ L, guardFirst (pre k a b t) = some (atom (.sym k) a a, t))
    (hrec : ∀ s, s ≠ [] → s <+: L → rec (.add false a b s) = some (.add false a b s)) (n : ℕ) :
    ∀ (rs s : List Blk), s ≠ [] → rs ≠ [] → s ++ rs = L →
      ffJ (guarded (N + 1)) rec 0 (n + rs.length) 1 (pre k a b (mk a b s)) (pre k a b (mk a b s) :: (rs.map (pre k a b) ++ U)) =
        if U = [] then some (.one (pre k a b (mk a b L)))
        else ffJ (guarded (N + 1)) rec 0 n 1 (pre k a b (mk a b L)) (pre k a b (mk a b L) :: U) := by
  intro rs
  induction rs with
  | nil => exact fun _ _ h _ => absurd rfl h
  | cons x rs ih =>
    intro s hs _ he
    have hxL : x ∈ L := by
      rw [← he]
      simp
    have hsL : ∀ t ∈ s, t ∈ L := fun t ht => by
      rw [← he]
      simp [ht]
    have hTs : Terms a b s := fun t ht => hT t (hsL t ht)
    have hsf : sameFirst (guarded (N + 1)).eq (pre k a b (mk a b s)) (pre k a b x) = some true := by
      rw [sameFirst_of (l := atom (.sym k) a a :: (mk a b s).mulTerms) (m := atom (.sym k) a a :: x.mulTerms) rfl rfl
        (head_pre haa _) (head_pre haa _)]
      exact guardEq_const _ _ _ _
    have hl : 2 ≤ (s ++ [x]).length := by
      have := List.length_pos_iff.mpr hs
      rw [List.length_append, List.length_singleton]
      omega
    have hm : mkAdd (mk a b s) x = some (.add false a b (s ++ [x])) := by
      rw [mkAdd_of (mk_shape hTs) (hT x hxL).shape, mk_addTerms hTs hs, addTerms_of (hT x hxL).noAdd]
    have hr := hrec (s ++ [x]) (by simp) ⟨rs, by rw [← he]; simp⟩
    have hmu : mkMul (atom (.sym k) a a) (.add false a b (s ++ [x])) = some (pre k a b (mk a b (s ++ [x]))) := by
      rw [pre_mk hl]
      exact (times_mul (x := atom (.sym k) a a) (y := .add false a b (s ++ [x])) (nice_of rfl rfl rfl haa)
        (nice_of rfl rfl rfl hne) rfl rfl haa hne).1
    have hstep := ffJ_merge (R := guarded (N + 1)) (rec := rec) (i := 0) (n := n + rs.length) (j := 1)
      (ts := pre k a b (mk a b s) :: ((x :: rs).map (pre k a b) ++ U)) (tj := pre k a b x) rfl rfl hsf
      (strip_mk hne haa hs fun t ht => h1 t (hsL t ht)) (h1 x hxL) hm hr hmu
    rw [List.length_cons, ← Nat.add_assoc, hstep]
    have hlist : ((pre k a b (mk a b s) :: ((x :: rs).map (pre k a b) ++ U)).set 0 (pre k a b (mk a b (s ++ [x])))).eraseIdx 1 =
        pre k a b (mk a b (s ++ [x])) :: (rs.map (pre k a b) ++ U) := rfl
    rw [hlist]
    have he' : (s ++ [x]) ++ rs = L := by
      rw [← he]
      simp
    cases rs with
    | nil =>
      rw [List.append_nil] at he'
      rw [he']
      cases U with
      | nil => rfl
      | cons => rfl
    | cons y rs' =>
      rw [if_neg (by simp)]
      exact ih (s ++ [x]) (by simp) (by simp) he'
end

/-! ### The rows of the transition -/

section
variable {z : Fin (C.n + 1) → Fin (C.n + 1) → Bool} {d : Fin (C.n + 1) → Bool} {n : ℕ} {r c : Fin (C.n + 1)}

/-- Blocks of the covariance alone. -/
def colP (C : Cfg) (r l : Fin (C.n + 1)) : Blk := symb .cov r l (C.dim r) (C.dim l)

theorem fac_col (hC : NoOne C) : Fac C (colP C r) (n + 1) r := by
  refine ⟨fun l => symb_scalar (ne_left (hC.1 r) _), fun l => trivial, fun l => rfl, fun l l' h => ?_, fun l i j => ?_⟩
  · have : ¬ l'.val = l.val := fun e => h (Fin.ext e.symm)
    simp [colP, occ_symb, this]
  · simp [colP, occ_symb]

theorem oth_col (hC : NoOne C) : Oth C [colP C r c] (n + 1) r c := by
  refine ⟨fun t ht => ?_, fun t ht l h => ?_, fun t ht i j => ?_, by simp⟩
  · rw [List.mem_singleton.mp ht]
    refine ⟨_, _, Has.symb _ _ _ (ne_left (hC.1 r) _), fun l => ?_⟩
    simp [occ_symb]
  · rw [List.mem_singleton.mp ht]
    have : ¬ l.val = c.val := fun e => h (Fin.ext e)
    simp [colP, occ_symb, this]
  · rw [List.mem_singleton.mp ht]
    simp [colP, occ_symb]

/-- The first factor of a term of `F P`. -/
def wF (C : Cfg) (d : Fin (C.n + 1) → Bool) (r l k : Fin (C.n + 1)) : Blk :=
  if r = k ∧ d r then symb .cov r l (C.dim r) (C.dim l) else symb .abar r k (C.dim r) (C.dim k)

theorem has_wT (hC : NoOne C) (l k : Fin (C.n + 1)) :
    Has (n + 2) (wT C d r l k) (wF C d r l k) (symb .cov k l (C.dim k) (C.dim l)) := by
  unfold wT wF
  split_ifs with h
  · obtain ⟨rfl, -⟩ := h
    exact Has.symb _ _ _ (ne_left (hC.1 r) _)
  · refine Has.mul ?_ ?_ rfl rfl
    · intro t ht
      simp only [List.mem_cons, List.not_mem_nil, or_false] at ht
      rcases ht with rfl | rfl
      · exact symb_scalar (ne_left (hC.1 r) _)
      · exact symb_scalar (ne_left (hC.1 k) _)
    · intro t ht
      simp only [List.mem_cons, List.not_mem_nil, or_false] at ht
      rcases ht with rfl | rfl <;> trivial

theorem occ_wT {l k : Fin (C.n + 1)} {i j : ℕ} : occ (pN i j) (wT C d r l k) ↔ i = k.val ∧ j = l.val := by
  unfold wT
  split_ifs with h
  · rw [occ_symb]
    simp [h.1]
  · simp [occ, occs, occ_symb]

theorem noG_wT {l k : Fin (C.n + 1)} : NoG (wT C d r l k) := by
  intro i j
  unfold wT
  split_ifs with h
  · simp [occ_symb]
  · simp [occ, occs, occ_symb]

theorem wT_apart (hC : NoOne C) {l i j : Fin (C.n + 1)} (h : i ≠ j) :
    Apart (guardEq (n + 2)) (wT C d r l i) (wT C d r l j) ∧ Sep (wT C d r l i) (wT C d r l j) := by
  have h' : ¬ i.val = j.val := fun e => h (Fin.ext e)
  have h0 : ¬ (occ (pN i l) (wT C d r l i) ↔ occ (pN i l) (wT C d r l j)) := by
    rw [occ_wT, occ_wT]
    simp [h']
  refine ⟨(has_wT hC l i).apart (has_wT hC l j) ⟨_, h0⟩ ?_ ⟨pN i l, ?_⟩, i, l, h0⟩
  · unfold wF
    split_ifs with h1 h2
    · exact absurd (h1.1.symm.trans h2.1) h
    · exact ⟨pN r l, by simp [occ_symb]⟩
    · exact ⟨pN r l, by simp [occ_symb]⟩
    · exact ⟨fN r i, by simp [occ_symb, h']⟩
  · simp [occ_symb, h']

theorem wTs_pair (hC : NoOne C) (l : Fin (C.n + 1)) :
    (wTs C z d r l).Pairwise fun t u => Apart (guardEq (n + 2)) t u ∧ Sep t u :=
  pairwise_opt fun _ _ _ _ h => wT_apart hC h

theorem length_wTs (l : Fin (C.n + 1)) : (wTs C z d r l).length ≤ C.n + 1 := by
  have := length_flatMap_opt (p := fun k => z r k) (t := wT C d r l) (List.finRange (C.n + 1))
  rw [List.length_finRange] at this
  exact this

theorem oth_row (hC : NoOne C) : Oth C (wTs C z d r c) (n + 1) r c := by
  refine ⟨fun t ht => ?_, fun t ht l h => ?_, fun t ht => ?_, wTs_pair hC c⟩
  · obtain ⟨k, -, rfl⟩ := mem_wTs.mp ht
    exact ⟨_, _, has_wT hC c k, fun l => by simp [occ_symb]⟩
  · obtain ⟨k, -, rfl⟩ := mem_wTs.mp ht
    rw [occ_wT]
    exact fun e => h (Fin.ext e.2)
  · obtain ⟨k, -, rfl⟩ := mem_wTs.mp ht
    exact noG_wT

/-- Rows with several blocks. -/
def rowX (C : Cfg) (z : Fin (C.n + 1) → Fin (C.n + 1) → Bool) (d : Fin (C.n + 1) → Bool) (r l : Fin (C.n + 1)) : Blk :=
  .add false (C.dim r) (C.dim l) (wTs C z d r l)

theorem fac_row (hC : NoOne C) (hz : ∀ r, z r r = true) : Fac C (rowX C z d r) (n + 3) r := by
  refine ⟨fun l => add_scalar (ne_left (hC.1 r) _), fun l => ?_, fun l => ?_, fun l l' h => ?_, fun l i j => ?_⟩
  · intro t ht
    obtain ⟨k, -, rfl⟩ := mem_wTs.mp ht
    exact (has_wT (n := n) hC l k).cl
  · exact occs_iff.mpr ⟨_, mem_wTs.mpr ⟨r, hz r, rfl⟩, occ_wT.mpr ⟨rfl, rfl⟩⟩
  · intro ho
    obtain ⟨t, ht, ho⟩ := occs_iff.mp ho
    obtain ⟨k, -, rfl⟩ := mem_wTs.mp ht
    exact h (Fin.ext (occ_wT.mp ho).2.symm)
  · intro ho
    obtain ⟨t, ht, ho⟩ := occs_iff.mp ho
    obtain ⟨k, -, rfl⟩ := mem_wTs.mp ht
    exact noG_wT _ _ ho

/-- The sum of a row is reduced. -/
theorem red_row (hC : NoOne C) {q f : ℕ} (hf : C.n + 3 ≤ f) (l : Fin (C.n + 1)) :
    (reduce (guarded (q + 2)) (f + 1) (rowX C z d r l)).isSome = true := by
  have hl := length_wTs (C := C) (z := z) (d := d) (r := r) l
  refine reduce_apart ((wTs_pair hC l).imp And.left) (by omega) ?_ _ _ _
  intro t ht
  obtain ⟨k, -, rfl⟩ := mem_wTs.mp ht
  unfold wT
  split_ifs
  · rfl
  · refine reduceTerm_plain fun u hu => ?_
    simp only [List.mem_cons, List.not_mem_nil, or_false] at hu
    rcases hu with rfl | rfl <;> rfl

theorem row_long (hC : NoOne C) (hz : ∀ r, z r r = true) {k : Fin (C.n + 1)} (hk : k ≠ r) (hr : z r k = true) (l : Fin (C.n + 1)) :
    2 ≤ (wTs C z d r l).length := by
  have h1 : wT C d r l r ∈ wTs C z d r l := mem_wTs.mpr ⟨r, hz r, rfl⟩
  have h2 : wT C d r l k ∈ wTs C z d r l := mem_wTs.mpr ⟨k, hr, rfl⟩
  have hs := (wT_apart (n := 0) (d := d) (r := r) hC (l := l) hk).2
  by_contra hlt
  have hlt : (wTs C z d r l).length ≤ 1 := by omega
  match hw : wTs C z d r l, hlt with
  | [], _ =>
    rw [hw] at h1
    simp at h1
  | [t], _ =>
    rw [hw] at h1 h2
    rw [List.mem_singleton.mp h1, List.mem_singleton.mp h2] at hs
    obtain ⟨i, j, hs⟩ := hs
    exact hs Iff.rfl

theorem row_short (hr : ∀ k, k ≠ r → z r k = false) (hz : ∀ r, z r r = true) (l : Fin (C.n + 1)) :
    wTs C z d r l = [wT C d r l r] := by
  unfold wTs
  rw [flatMap_single (l := r), hz r]
  · rfl
  · intro k hk
    rw [hr k hk]
    rfl

theorem vTs_long (hC : NoOne C) (hz : ∀ r, z r r = true) {k : Fin (C.n + 1)} (hk : k ≠ r) (hr : z r k = true) :
    vTs C z d r c = gTs C z d (rowX C z d r) (wTs C z d r c) r c := by
  unfold vTs gTs
  congr 1
  funext l
  unfold vT gT gS
  split_ifs with h1 h2
  · rw [h2.1]
  · rw [mk_two (row_long hC hz hk hr l)]
    rfl
  · rfl

theorem vTs_ident (hr : ∀ k, k ≠ r → z r k = false) (hz : ∀ r, z r r = true) (hd : d r = true) :
    vTs C z d r c = gTs C z d (colP C r) [colP C r c] r c := by
  have hw : ∀ l, wTs C z d r l = [colP C r l] := by
    intro l
    rw [row_short hr hz, wT, if_pos ⟨rfl, hd⟩]
    rfl
  unfold vTs gTs
  congr 1
  funext l
  unfold vT gT gS
  rw [hw]
  split_ifs with h1 h2
  · rw [h2.1]
  · rfl
  · rfl

theorem vTs_first (hr : ∀ k, k ≠ r → z r k = false) (hz : ∀ r, z r r = true) (hd : d r = false) :
    vTs C z d r c = (gTs C z d (colP C r) [colP C r c] r c).map (pre (sy .abar r r) (C.dim r) (C.dim c)) := by
  have hw : ∀ l, wTs C z d r l = [.mul false false (C.dim r) (C.dim l) [symb .abar r r (C.dim r) (C.dim r), colP C r l]] := by
    intro l
    rw [row_short hr hz, wT, if_neg (by simp [hd])]
    rfl
  unfold vTs gTs
  rw [List.map_flatMap]
  congr 1
  funext l
  unfold vT gT gS
  rw [hw]
  split_ifs with h1 h2
  · rw [h2.1]
    rfl
  · rfl
  · rfl

end

end Verif.Props.EkfGen
