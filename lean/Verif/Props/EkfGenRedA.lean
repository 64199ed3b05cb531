import Verif.Props.EkfGenRed

/-!
Every block of the transition is reduced.
-/

namespace Verif.Props.EkfGen

open Verif.Model.Symb Verif.Model.Symb.Blk Verif.Model.EkfGen Verif.Spec.Symb Verif.Spec.EkfGen Verif.Lemmas.Symb
open Verif.Props.Symb

theorem popLast_snoc {x : Blk} (h : x.isScalar = false) : ∀ l : List Blk, popLast (l ++ [x]) = some (l, x)
  | [] => by simp [popLast, h]
  | t :: l => by rw [List.cons_append, popLast, popLast_snoc h l]

/-- `A + dt B A / 2`. -/
theorem red_last {q n j k d : ℕ} {a b : Dim} (ha : a = .num d) (hne : (a, b) ≠ one1) (haa : (a, a) ≠ one1)
    (hk : Name.sym k ≠ hName) (hkj : k ≠ j) :
    (reduce (guarded (q + 2)) (n + 6) (.add false a b [atom (.sym k) a b,
      .mul false true a b [halfB, dtB, atom (.sym j) a a, atom (.sym k) a b]])).isSome = true := by
  have hcQ : cls false (q + 2) (.mul false true a b [halfB, dtB, atom (.sym j) a a, atom (.sym k) a b]) := by
    refine cls_mul (fun _ => rfl) fun t ht => ?_
    simp only [List.mem_cons, List.not_mem_nil, or_false] at ht
    rcases ht with rfl | rfl | rfl | rfl <;> trivial
  have hNe : Ne (guarded (q + 2)).eq (atom (.sym k) a b) (.mul false true a b [halfB, dtB, atom (.sym j) a a, atom (.sym k) a b]) := by
    have h : ¬ (occ hName (atom (.sym k) a b) ↔
        occ hName (.mul false true a b [halfB, dtB, atom (.sym j) a a, atom (.sym k) a b])) := by
      simp only [occ, occs, occ_half, true_or, iff_true]
      exact fun e => hk e.symm
    exact ⟨guardEq_false (K := false) trivial hcQ h, guardEq_false (K := false) hcQ trivial fun e => h e.symm⟩
  have hf := factor_apart (pair_list hNe)
  have hs := factorScalars_apart (n := n + 4) (pair_list (noScal_atom (eq := (guarded (q + 2)).eq) (k := .sym k) (a := a) (b := b)
    (u := .mul false true a b [halfB, dtB, atom (.sym j) a a, atom (.sym k) a b]))) (by simp) false a b
  have hm : nonScalar [halfB, dtB, atom (.sym j) a a, atom (.sym k) a b] = [atom (.sym j) a a, atom (.sym k) a b] := by
    rw [nonScalar_cons_t half_scalar, nonScalar_cons_t dt_scalar, nonScalar_cons_f (atom_scalar haa), nonScalar_atom hne]
  have hnf : NoFirst (guarded (q + 2)).eq (atom (.sym k) a b)
      (.mul false true a b [halfB, dtB, atom (.sym j) a a, atom (.sym k) a b]) := by
    unfold NoFirst
    rw [sameFirst_of (l := [atom (.sym k) a b]) (m := [halfB, dtB, atom (.sym j) a a, atom (.sym k) a b]) (x := atom (.sym k) a b)
      (y := atom (.sym j) a a) rfl rfl (by rw [nonScalar_atom hne]; rfl) (by rw [hm]; rfl)]
    exact guardEq_false (K := false) (nm := .sym k) trivial trivial (by simp [occ, hkj])
  have hff := factorFirst_apart (R := guarded (q + 2)) (n := n + 4) (pair_list hnf) (by simp) false a b
  have hsl : sameLast (guarded (q + 2)).eq (atom (.sym k) a b)
      (.mul false true a b [halfB, dtB, atom (.sym j) a a, atom (.sym k) a b]) = some true := by
    rw [sameLast_of (l := [atom (.sym k) a b]) (m := [halfB, dtB, atom (.sym j) a a, atom (.sym k) a b]) (x := atom (.sym k) a b)
      (y := atom (.sym k) a b) rfl rfl (by rw [nonScalar_atom hne]; rfl) (by rw [hm]; rfl)]
    exact guardEq_const _ _ _ _
  have hg1 : (guarded (q + 2)).stripLast (atom (.sym k) a b) = some (cI a, atom (.sym k) a b) := by
    rw [guarded_last, guardLast, atom_scalar hne, ha]
    rfl
  have hg2 : (guarded (q + 2)).stripLast (.mul false true a b [halfB, dtB, atom (.sym j) a a, atom (.sym k) a b]) =
      some (.mul false true a a [halfB, dtB, atom (.sym j) a a], atom (.sym k) a b) := by
    have hp := popLast_snoc (x := atom (.sym k) a b) (atom_scalar hne) [halfB, dtB, atom (.sym j) a a]
    simp only [List.cons_append, List.nil_append] at hp
    simp only [guarded_last, guardLast, hp, Option.bind_eq_bind, Option.bind_some]
    rw [nonScalar_cons_t half_scalar, nonScalar_cons_t dt_scalar, nonScalar_cons_f (atom_scalar haa)]
    rfl
  have hm1 : mkAdd (cI a) (.mul false true a a [halfB, dtB, atom (.sym j) a a]) =
      some (.add false a a [cI a, .mul false true a a [halfB, dtB, atom (.sym j) a a]]) := mkAdd_of rfl rfl
  have hm2 : mkMul (.add false a a [cI a, .mul false true a a [halfB, dtB, atom (.sym j) a a]]) (atom (.sym k) a b) =
      some (.mul false false a b [.add false a a [cI a, .mul false true a a [halfB, dtB, atom (.sym j) a a]], atom (.sym k) a b]) := by
    have := times_mul (x := .add false a a [cI a, .mul false true a a [halfB, dtB, atom (.sym j) a a]]) (y := atom (.sym k) a b)
      (nice_of rfl rfl rfl haa) (nice_of rfl rfl rfl hne) rfl rfl haa hne
    exact this.1
  have hfl : factorLast (guarded (q + 2)) (n + 5) (.add false a b [atom (.sym k) a b,
      .mul false true a b [halfB, dtB, atom (.sym j) a a, atom (.sym k) a b]]) = some (.mul false false a b [
        .add false a a [cI a, .mul false true a a [halfB, dtB, atom (.sym j) a a]], atom (.sym k) a b]) := by
    refine factorLast_one (n := n + 4) rfl ?_
    rw [flJ_merge (tj := .mul false true a b [halfB, dtB, atom (.sym j) a a, atom (.sym k) a b]) rfl rfl hsl hg1 hg2 hm1 hm2]
    rfl
  refine reduce_mul hf (combine_of hs hff hfl) fun u hu => ?_
  simp only [List.mem_cons, List.not_mem_nil, or_false] at hu
  rcases hu with rfl | rfl
  · rw [reduceTerm]
    exact red_end (q := q) (n := n) (k := j) (c := a) haa
  · rfl

/-! ### Products without scalars -/

/-- No factor is a scalar. -/
def Plain (l : List Blk) : Prop := ∀ t ∈ l, t.isScalar = false

theorem Plain.nonScalar {l : List Blk} (h : Plain l) : nonScalar l = l := by
  unfold Blk.nonScalar
  rw [List.filter_eq_self]
  intro t ht
  simp [h t ht]

theorem Plain.scalars {l : List Blk} (h : Plain l) : (l.filter fun t => t.isScalar) = [] := by
  rw [List.filter_eq_nil_iff]
  intro t ht
  simp [h t ht]

theorem sameScalar_nil {eq : Blk → Blk → Option Bool} : ∀ l : List Blk, sameScalar eq [] l = some none
  | [] => rfl
  | u :: us => by
    rw [sameScalar]
    simp only [anyM, Option.bind_eq_bind, Option.bind_some, Bool.false_eq_true, if_false]
    exact sameScalar_nil us

theorem noScal_plain {eq : Blk → Blk → Option Bool} {neg cm : Bool} {a b : Dim} {l : List Blk} {u : Blk} (h : Plain l) :
    NoScal eq (.mul neg cm a b l) u := by
  intro _ _ _ _ us _ _ _ _ ws e _
  injection e with _ _ _ _ e
  subst e
  rw [h.scalars]
  exact sameScalar_nil _

theorem apart_plain {K : Bool} {n : ℕ} {a b : Dim} {l m : List Blk} {x x' y y' : Blk} (hl : Plain l) (hm : Plain m)
    (hcl : ∀ t ∈ l, cls K n t) (hcm : ∀ t ∈ m, cls K n t) (hx : l.head? = some x) (hx' : m.head? = some x')
    (hy : l.getLast? = some y) (hy' : m.getLast? = some y') (h0 : ∃ nm, ¬ (occs nm l ↔ occs nm m))
    (h1 : ∃ nm, ¬ (occ nm x ↔ occ nm x')) (h2 : ∃ nm, ¬ (occ nm y ↔ occ nm y')) :
    Apart (guardEq (n + 1)) (.mul false false a b l) (.mul false false a b m) :=
  apart_gen rfl rfl (cls_mul (by simp) hcl) (cls_mul (by simp) hcm) (by rw [hl.nonScalar, hx]) (by rw [hm.nonScalar, hx'])
    (by rw [hl.nonScalar, hy]) (by rw [hm.nonScalar, hy']) h0 h1 h2 (noScal_plain hl)

theorem reduceTerm_plain {rec : Blk → Option Blk} {neg cm : Bool} {a b : Dim} {l : List Blk} (h : ∀ t ∈ l, t.isAdd = false) :
    (reduceTerm rec (.mul neg cm a b l)).isSome = true :=
  reduceTerm_mul fun u hu ha => absurd (h u hu) (by simp [ha])

theorem length_flatMap_opt {α : Type} {p : α → Bool} {t : α → Blk} : ∀ l : List α,
    (l.flatMap fun k => opt (p k) (t k)).length ≤ l.length
  | [] => by simp
  | k :: l => by
    have := length_flatMap_opt (p := p) (t := t) l
    rw [List.flatMap_cons, List.length_append, List.length_cons]
    have h1 : (opt (p k) (t k)).length ≤ 1 := by cases p k <;> simp [opt]
    omega

theorem pairwise_opt {P : Blk → Blk → Prop} {n : ℕ} {p : Fin n → Bool} {t : Fin n → Blk}
    (h : ∀ i j, p i = true → p j = true → i ≠ j → P (t i) (t j)) :
    ((List.finRange n).flatMap fun k => opt (p k) (t k)).Pairwise P := by
  rw [List.pairwise_flatMap]
  constructor
  · intro k _
    cases p k <;> simp [opt]
  · refine (List.nodup_finRange n).imp ?_
    intro i j hij x hx y hy
    obtain ⟨hi, rfl⟩ := mem_opt.mp hx
    obtain ⟨hj, rfl⟩ := mem_opt.mp hy
    exact h i j hi hj hij

variable {C : Cfg}

theorem length_sq (r c : Fin (C.n + 1)) : (sq C r c).length ≤ C.n + 1 := by
  have := length_flatMap_opt (p := fun k => C.fx r k && C.fx k c) (t := fun k =>
    .mul false false (C.dim r) (C.dim c) [symb .dxdx r k (C.dim r) (C.dim k), symb .dxdx k c (C.dim k) (C.dim c)])
    (List.finRange (C.n + 1))
  rw [List.length_finRange] at this
  exact this

theorem symb_scalar {k : Kind} {r c : ℕ} {a b : Dim} (h : (a, b) ≠ one1) : (symb k r c a b).isScalar = false := decide_eq_false h

theorem occ_symb {k j : Kind} {r c r' c' : ℕ} {a b : Dim} : occ (.sym (sy k r c)) (symb j r' c' a b) ↔ k = j ∧ r = r' ∧ c = c' := by
  rw [symb, occ, Name.sym.injEq, sy_inj]

/-- A block of the square of the Jacobian is reduced. -/
theorem red_sq (hC : NoOne C) {q f : ℕ} (hf : C.n + 3 ≤ f) (r c : Fin (C.n + 1)) :
    (sq C r c).Pairwise (Apart (guarded (q + 2)).eq) ∧
    (reduce (guarded (q + 2)) (f + 1) (.add false (C.dim r) (C.dim c) (sq C r c))).isSome = true := by
  have hp : (sq C r c).Pairwise (Apart (guarded (q + 2)).eq) := by
    refine pairwise_opt fun i j _ _ hij => ?_
    have hn : ∀ k : Fin (C.n + 1), Plain [symb .dxdx r k (C.dim r) (C.dim k), symb .dxdx k c (C.dim k) (C.dim c)] := by
      intro k t ht
      simp only [List.mem_cons, List.not_mem_nil, or_false] at ht
      rcases ht with rfl | rfl
      · exact symb_scalar (ne_left (hC.1 r) _)
      · exact symb_scalar (ne_left (hC.1 k) _)
    have hc : ∀ k : Fin (C.n + 1), ∀ t ∈ [symb .dxdx r k (C.dim r) (C.dim k), symb .dxdx k c (C.dim k) (C.dim c)],
        cls false (q + 1) t := by
      intro k t ht
      simp only [List.mem_cons, List.not_mem_nil, or_false] at ht
      rcases ht with rfl | rfl <;> trivial
    have hij' : i.val ≠ j.val := fun e => hij (Fin.ext e)
    refine apart_plain (K := false) (n := q + 1) (hn i) (hn j) (hc i) (hc j) rfl rfl rfl rfl ?_ ⟨.sym (sy .dxdx r i), ?_⟩
      ⟨.sym (sy .dxdx i c), ?_⟩
    · by_contra hcon
      push Not at hcon
      have h1 := hcon (.sym (sy .dxdx r i))
      have h2 := hcon (.sym (sy .dxdx i c))
      simp only [occs, occ_symb, true_and, and_true, or_false, true_or, or_true, true_iff] at h1 h2
      omega
    · simp [occ_symb, hij']
    · simp [occ_symb, hij']
  have hl := length_sq r c
  refine ⟨hp, reduce_apart hp (by omega) ?_ _ _ _⟩
  intro t ht
  obtain ⟨k, -, rfl⟩ := mem_sq.mp ht
  refine reduceTerm_plain fun u hu => ?_
  simp only [List.mem_cons, List.not_mem_nil, or_false] at hu
  rcases hu with rfl | rfl <;> rfl

/-! ### A scalar taken out -/

section
variable {q n k : ℕ} {a b : Dim} {X : List Blk}

theorem dt_half : guardEq (q + 1) dtB halfB = some false :=
  guardEq_false (K := false) (nm := hName) trivial trivial (by
    simp only [occ_half, iff_true]
    unfold dtB
    rw [occ_symb]
    simp)

theorem half_dt : guardEq (q + 1) halfB dtB = some false :=
  guardEq_false (K := false) (nm := hName) trivial trivial (by
    simp only [occ_half, true_iff]
    unfold dtB
    rw [occ_symb]
    simp)

theorem dt_dt : guardEq (q + 1) dtB dtB = some true := guardEq_const _ _ _ _

theorem same_dt (hne : (a, b) ≠ one1) : sameScalar (guardEq (q + 1)) ([dtB, atom (.sym k) a b].filter fun t => t.isScalar)
    (halfB :: dtB :: dtB :: X) = some (some dtB) := by
  have h : ([dtB, atom (.sym k) a b].filter fun t => t.isScalar) = [dtB] := by
    rw [List.filter_cons, dt_scalar, List.filter_cons, atom_scalar hne]
    rfl
  rw [h]
  simp only [sameScalar, anyM, dt_half, dt_dt, Option.bind_eq_bind, Option.bind_some, Bool.false_eq_true, if_false, if_true]

theorem strip_one : stripScalar (guardEq (q + 1)) dtB (.mul false true a b [dtB, atom (.sym k) a b]) =
    some (dtB, atom (.sym k) a b) := by
  simp only [stripScalar, split, dt_dt, Option.bind_eq_bind, Option.bind_some, if_true]
  rfl

theorem strip_two : stripScalar (guardEq (q + 1)) dtB (.mul false true a b (halfB :: dtB :: dtB :: X)) =
    some (dtB, .mul false true a b (halfB :: dtB :: X)) := by
  simp only [stripScalar, split, dt_dt, half_dt, Option.bind_eq_bind, Option.bind_some, if_true, Bool.false_eq_true, if_false]
  rfl

theorem mul_dt (hne : (a, b) ≠ one1) : mkMul dtB (.add false a b [atom (.sym k) a b, .mul false true a b (halfB :: dtB :: X)]) =
    some (.mul false true a b [dtB, .add false a b [atom (.sym k) a b, .mul false true a b (halfB :: dtB :: X)]]) :=
  (times_scalar (s := dtB) (x := .add false a b [atom (.sym k) a b, .mul false true a b (halfB :: dtB :: X)]) rfl rfl rfl rfl
    (nice_of rfl rfl rfl hne)).1

theorem fs_rec : factorScalars (guardEq (q + 1)) (n + 4) (.add false a b [atom (.sym k) a b, .mul false true a b (halfB :: dtB :: X)]) =
    some (.add false a b [atom (.sym k) a b, .mul false true a b (halfB :: dtB :: X)]) :=
  factorScalars_apart (pair_list noScal_atom) (by simp) _ _ _

theorem fs_two (hne : (a, b) ≠ one1) : factorScalars (guardEq (q + 1)) (n + 5) (.add false a b
    [.mul false true a b [dtB, atom (.sym k) a b], .mul false true a b (halfB :: dtB :: dtB :: X)]) =
      some (.mul false true a b [dtB, .add false a b [atom (.sym k) a b, .mul false true a b (halfB :: dtB :: X)]]) := by
  rw [factorScalars]
  simp only [fsI, List.getElem?_cons_zero, zero_add]
  rw [fsJ_merge (ws := halfB :: dtB :: dtB :: X) rfl (same_dt hne) strip_one strip_two (mkAdd_of rfl rfl) fs_rec (mul_dt hne) rfl]
  rfl

theorem fs_three (hne : (a, b) ≠ one1) : factorScalars (guardEq (q + 1)) (n + 6) (.add false a b
    [atom .ident a b, .mul false true a b [dtB, atom (.sym k) a b], .mul false true a b (halfB :: dtB :: dtB :: X)]) =
      some (.add false a b [atom .ident a b,
        .mul false true a b [dtB, .add false a b [atom (.sym k) a b, .mul false true a b (halfB :: dtB :: X)]]]) := by
  rw [factorScalars]
  have h0 : ∀ rec : Blk → Option Blk, fsJ (guardEq (q + 1)) rec 0 (n + 5) 1 (atom .ident a b) [atom .ident a b,
      .mul false true a b [dtB, atom (.sym k) a b], .mul false true a b (halfB :: dtB :: dtB :: X)] false =
        some (.sum [atom .ident a b, .mul false true a b [dtB, atom (.sym k) a b],
          .mul false true a b (halfB :: dtB :: dtB :: X)], false) := fun rec =>
    fsJ_apart _ _ (by simp) fun _ _ _ _ _ _ _ _ _ _ _ _ _ _ h => by cases h
  have h1 : fsJ (guardEq (q + 1)) (factorScalars (guardEq (q + 1)) (n + 5)) 1 (n + 5) 2 (.mul false true a b [dtB, atom (.sym k) a b])
      [atom .ident a b, .mul false true a b [dtB, atom (.sym k) a b], .mul false true a b (halfB :: dtB :: dtB :: X)] false =
        some (.sum [atom .ident a b,
          .mul false true a b [dtB, .add false a b [atom (.sym k) a b, .mul false true a b (halfB :: dtB :: X)]]], true) := by
    rw [fsJ_merge (ws := halfB :: dtB :: dtB :: X) rfl (same_dt hne) strip_one strip_two (mkAdd_of rfl rfl)
      (fs_rec (n := n + 1)) (mul_dt hne) rfl]
    exact (if_neg (by simp)).trans (fsJ_end (n := n + 3) rfl)
  have h2 := factorScalars_apart (eq := guardEq (q + 1)) (n := n + 4) (ts := [atom .ident a b,
    .mul false true a b [dtB, .add false a b [atom (.sym k) a b, .mul false true a b (halfB :: dtB :: X)]]])
    (pair_list noScal_atom) (by simp) false a b
  have h3 : fsI (guardEq (q + 1)) (factorScalars (guardEq (q + 1)) (n + 5)) (n + 5) (n + 5) 0 [atom .ident a b,
      .mul false true a b [dtB, atom (.sym k) a b], .mul false true a b (halfB :: dtB :: dtB :: X)] false =
        some (.sum [atom .ident a b,
          .mul false true a b [dtB, .add false a b [atom (.sym k) a b, .mul false true a b (halfB :: dtB :: X)]]], true) := by
    rw [fsI]
    simp only [List.getElem?_cons_zero, zero_add, h0, Option.bind_eq_bind, Option.bind_some]
    rw [fsI]
    simp only [List.getElem?_cons_zero, List.getElem?_cons_succ, Nat.reduceAdd, h1, Option.bind_eq_bind, Option.bind_some]
    rfl
  rw [h3]
  exact h2

/-- `A` after names that are not its own. -/
theorem cls_q (hX : ∀ t ∈ X, cls false (q + 1) t) : ∀ t ∈ halfB :: dtB :: X, cls false (q + 1) t := by
  intro t ht
  simp only [List.mem_cons] at ht
  rcases ht with rfl | rfl | ht
  · trivial
  · trivial
  · exact hX t ht

theorem cls_qq (hX : ∀ t ∈ X, cls false (q + 1) t) : ∀ t ∈ halfB :: dtB :: dtB :: X, cls false (q + 1) t :=
  fun t ht => by
    rcases List.mem_cons.mp ht with rfl | ht
    · trivial
    · rcases List.mem_cons.mp ht with rfl | ht
      · trivial
      · rcases List.mem_cons.mp ht with rfl | ht
        · trivial
        · exact hX t ht

theorem ne_dq (hX : ∀ t ∈ X, cls false (q + 1) t) (hk : Name.sym k ≠ hName) : Ne (guardEq (q + 2))
    (.mul false true a b [dtB, atom (.sym k) a b]) (.mul false true a b (halfB :: dtB :: dtB :: X)) := by
  have h : ¬ (occ hName (.mul false true a b [dtB, atom (.sym k) a b]) ↔
      occ hName (.mul false true a b (halfB :: dtB :: dtB :: X))) := by
    simp only [occ, occs, occ_half, true_or, iff_true, or_false, not_or]
    refine ⟨?_, fun e => hk e.symm⟩
    unfold dtB
    rw [occ_symb]
    simp
  have h1 : cls false (q + 2) (.mul false true a b [dtB, atom (.sym k) a b]) := by
    refine cls_mul (fun _ => rfl) fun t ht => ?_
    simp only [List.mem_cons, List.not_mem_nil, or_false] at ht
    rcases ht with rfl | rfl <;> trivial
  have h2 : cls false (q + 2) (.mul false true a b (halfB :: dtB :: dtB :: X)) := cls_mul (fun _ => rfl) (cls_qq hX)
  exact ⟨guardEq_false h1 h2 h, guardEq_false h2 h1 fun e => h e.symm⟩

theorem ne_ident {l : List Blk} (hl : ∀ t ∈ l, cls false (q + 1) t) (ho : ¬ occs .ident l) :
    Ne (guardEq (q + 2)) (atom .ident a b) (.mul false true a b l) := by
  have h : ¬ (occ .ident (atom .ident a b) ↔ occ .ident (.mul false true a b l)) := by simp [occ, ho]
  exact ⟨guardEq_false (K := false) trivial (cls_mul (fun _ => rfl) hl) h,
    guardEq_false (K := false) (cls_mul (fun _ => rfl) hl) trivial fun e => h e.symm⟩

/-- `dt A + dt dt X / 2`, alone and after an identity. -/
theorem red_two (hne : (a, b) ≠ one1) (hX : ∀ t ∈ X, cls false (q + 1) t) (hk : Name.sym k ≠ hName)
    (hr : (reduce (guarded (q + 2)) (n + 5) (.add false a b [atom (.sym k) a b, .mul false true a b (halfB :: dtB :: X)])).isSome =
      true) : (reduce (guarded (q + 2)) (n + 6) (.add false a b
    [.mul false true a b [dtB, atom (.sym k) a b], .mul false true a b (halfB :: dtB :: dtB :: X)])).isSome = true := by
  refine reduce_mul (factor_apart (pair_list (ne_dq hX hk))) (combine_of (fs_two hne) (factorFirst_pair rfl) (factorLast_pair rfl))
    fun u hu => ?_
  simp only [List.mem_cons, List.not_mem_nil, or_false] at hu
  rcases hu with rfl | rfl
  · rfl
  · exact hr

theorem red_three (hne : (a, b) ≠ one1) (hX : ∀ t ∈ X, cls false (q + 1) t) (hk : Name.sym k ≠ hName) (hi : ¬ occs .ident X)
    (hr : (reduce (guarded (q + 4)) (n + 6) (.add false a b [atom (.sym k) a b, .mul false true a b (halfB :: dtB :: X)])).isSome =
      true) : (reduce (guarded (q + 4)) (n + 7) (.add false a b
    [atom .ident a b, .mul false true a b [dtB, atom (.sym k) a b], .mul false true a b (halfB :: dtB :: dtB :: X)])).isSome =
      true := by
  have hX' : ∀ t ∈ X, cls false (q + 3) t := fun t ht => cls_mono (by omega) (hX t ht)
  have hid : ¬ occ .ident dtB := by simp [occ, dtB, symb]
  have hih : ¬ occ .ident halfB := by simp [occ, halfB, symb]
  have hap : Apart (guarded (q + 4)).eq (atom .ident a b)
      (.mul false true a b [dtB, .add false a b [atom (.sym k) a b, .mul false true a b (halfB :: dtB :: X)]]) := by
    refine apart_ident (m := [.add false a b [atom (.sym k) a b, .mul false true a b (halfB :: dtB :: X)]]) hne ?_ ?_ ?_ rfl rfl
    · intro t ht
      simp only [List.mem_cons, List.not_mem_nil, or_false] at ht
      rcases ht with rfl | rfl
      · trivial
      · intro t ht
        simp only [List.mem_cons, List.not_mem_nil, or_false] at ht
        rcases ht with rfl | rfl
        · trivial
        · exact cls_mul (fun _ => rfl) (cls_q hX)
    · simp [occs, occ, hid, hih, hi]
    · rw [nonScalar_cons_t dt_scalar, nonScalar_cons_f (add_scalar hne)]
      rfl
  have hp : [atom .ident a b, .mul false true a b [dtB, atom (.sym k) a b],
      .mul false true a b (halfB :: dtB :: dtB :: X)].Pairwise (Ne (guarded (q + 4)).eq) := by
    refine .cons ?_ (pair_list (ne_dq hX' hk))
    intro u hu
    simp only [List.mem_cons, List.not_mem_nil, or_false] at hu
    rcases hu with rfl | rfl
    · refine ne_ident ?_ ?_
      · intro t ht
        simp only [List.mem_cons, List.not_mem_nil, or_false] at ht
        rcases ht with rfl | rfl <;> trivial
      · simp [occs, occ, hid]
    · refine ne_ident (cls_qq hX') ?_
      simp [occs, hid, hih, hi]
  refine reduce_add (factor_apart hp) (combine_of (fs_three hne) (factorFirst_apart (pair_list hap.first) (by simp) _ _ _)
    (factorLast_apart (pair_list hap.last) (by simp) _ _ _)) fun u hu => ?_
  simp only [List.mem_cons, List.not_mem_nil, or_false] at hu
  rcases hu with rfl | rfl
  · rfl
  · refine reduceTerm_mul fun u hu ha => ?_
    simp only [List.mem_cons, List.not_mem_nil, or_false] at hu
    rcases hu with rfl | rfl
    · simp [isAdd, dtB, symb] at ha
    · exact hr

/-- `I + dt dt X / 2`. -/
theorem red_far (hne : (a, b) ≠ one1) {x y : Blk} (hX : ∀ t ∈ X, cls false (q + 1) t) (hi : ¬ occs .ident X)
    (hx : (nonScalar X).head? = some x) (hy : (nonScalar X).getLast? = some y)
    (hr : ∀ u ∈ X, u.isAdd = true → (reduce (guarded (q + 2)) (n + 4) u).isSome = true) :
    (reduce (guarded (q + 2)) (n + 5) (.add false a b [atom .ident a b, .mul false true a b (halfB :: dtB :: dtB :: X)])).isSome =
      true := by
  have hid : ¬ occ .ident dtB := by simp [occ, dtB, symb]
  have hih : ¬ occ .ident halfB := by simp [occ, halfB, symb]
  refine reduce_apart (n := n + 4) (pair_list (apart_ident (m := nonScalar X) hne (cls_qq hX) ?_ ?_ hx hy)) (by simp) ?_ _ _ _
  · simp [occs, hid, hih, hi]
  · rw [nonScalar_cons_t half_scalar, nonScalar_cons_t dt_scalar, nonScalar_cons_t dt_scalar]
  · intro t ht
    simp only [List.mem_cons, List.not_mem_nil, or_false] at ht
    rcases ht with rfl | rfl
    · rfl
    · refine reduceTerm_mul fun u hu ha => ?_
      simp only [List.mem_cons] at hu
      rcases hu with rfl | rfl | rfl | hu
      · simp [isAdd, halfB, symb] at ha
      · simp [isAdd, dtB, symb] at ha
      · simp [isAdd, dtB, symb] at ha
      · exact hr u hu ha

/-- `I + dt A`. -/
theorem red_near (hne : (a, b) ≠ one1) : (reduce (guarded (q + 2)) (n + 5) (.add false a b
    [atom .ident a b, .mul false true a b [dtB, atom (.sym k) a b]])).isSome = true := by
  refine reduce_apart (n := n + 4) (pair_list (apart_ident (m := [atom (.sym k) a b]) hne ?_ ?_ ?_ rfl rfl)) (by simp) ?_ _ _ _
  · intro t ht
    simp only [List.mem_cons, List.not_mem_nil, or_false] at ht
    rcases ht with rfl | rfl <;> trivial
  · simp [occs, occ, dtB, symb]
  · rw [nonScalar_cons_t dt_scalar, nonScalar_atom hne]
  · intro t ht
    simp only [List.mem_cons, List.not_mem_nil, or_false] at ht
    rcases ht with rfl | rfl
    · rfl
    · refine reduceTerm_plain fun u hu => ?_
      simp only [List.mem_cons, List.not_mem_nil, or_false] at hu
      rcases hu with rfl | rfl <;> rfl

end

/-! ### The blocks of the transition -/

variable (C) in
/-- A state that depends on itself and on another has a fixed size. -/
def Fixed : Prop := ∀ r c, C.fx r r = true → C.fx r c = true → r ≠ c → ∃ d, C.dim r = .num d

/-- The terms of a sum of products of two. -/
theorem two_sq {r c : Fin (C.n + 1)} : (sq C r c).Pairwise fun t u => ∃ i j : Fin (C.n + 1), i ≠ j ∧
    occ (.sym (sy .dxdx r i)) t ∧ occ (.sym (sy .dxdx r j)) u := by
  refine pairwise_opt fun i j _ _ hij => ⟨i, j, hij, ?_, ?_⟩ <;> simp [occ, occs, occ_symb]

theorem name_ne (r c : ℕ) : Name.sym (sy .dxdx r c) ≠ hName := by simp [sy_inj]

/-- What the square of the Jacobian is like as a factor. -/
structure Square (C : Cfg) (q f : ℕ) (r c : Fin (C.n + 1)) (X : List Blk) : Prop where
  cl : ∀ t ∈ X, cls false 3 t
  id : ¬ occs .ident X
  head : ∃ x, (nonScalar X).head? = some x
  last : ∃ x, (nonScalar X).getLast? = some x
  red : ∀ u ∈ X, u.isAdd = true → (reduce (guarded (q + 4)) f u).isSome = true
  mid : C.fx r c = true → (reduce (guarded (q + 4)) (f + 2) (.add false (C.dim r) (C.dim c) [symb .dxdx r c (C.dim r) (C.dim c),
    .mul false true (C.dim r) (C.dim c) (halfB :: dtB :: X)])).isSome = true

theorem square (hC : NoOne C) (hF : Fixed C) {q f : ℕ} (hf : C.n + 4 ≤ f) (r c : Fin (C.n + 1)) (hS : sq C r c ≠ []) :
    Square C q f r c (mk (C.dim r) (C.dim c) (sq C r c)).mulTerms := by
  obtain ⟨g, rfl⟩ : ∃ g, f = g + 4 := ⟨f - 4, by omega⟩
  have hne := ne_left (hC.1 r) (C.dim c)
  have hcl : ∀ t ∈ sq C r c, cls false 2 t := by
    intro t ht
    obtain ⟨k, -, rfl⟩ := mem_sq.mp ht
    refine cls_mul (fun _ => rfl) fun u hu => ?_
    simp only [List.mem_cons, List.not_mem_nil, or_false] at hu
    rcases hu with rfl | rfl <;> trivial
  have hid : ∀ t ∈ sq C r c, ¬ occ .ident t := by
    intro t ht
    obtain ⟨k, -, rfl⟩ := mem_sq.mp ht
    simp [occ, occs, symb]
  have hred := (red_sq hC (q := q + 2) (f := g + 3) (by omega) r c).2
  have htwo := two_sq (C := C) (r := r) (c := c)
  have hmem := fun t => mem_sq (C := C) (r := r) (c := c) (t := t)
  generalize hL : sq C r c = L at *
  match L, hS with
  | [t], _ =>
    obtain ⟨k, ⟨hrk, hkc⟩, rfl⟩ := (hmem t).mp (by simp)
    have hrk' := ne_left (hC.1 r) (C.dim k)
    have hkc' := ne_left (hC.1 k) (C.dim c)
    have hn : nonScalar [symb .dxdx r k (C.dim r) (C.dim k), symb .dxdx k c (C.dim k) (C.dim c)] =
        [symb .dxdx r k (C.dim r) (C.dim k), symb .dxdx k c (C.dim k) (C.dim c)] := by
      rw [nonScalar_cons_f (symb_scalar hrk'), nonScalar_cons_f (symb_scalar hkc')]
      rfl
    have hc3 : ∀ m, ∀ t ∈ [symb .dxdx r k (C.dim r) (C.dim k), symb .dxdx k c (C.dim k) (C.dim c)], cls false (m + 1) t := by
      intro m t ht
      simp only [List.mem_cons, List.not_mem_nil, or_false] at ht
      rcases ht with rfl | rfl <;> trivial
    have had : ∀ t ∈ [symb .dxdx r k (C.dim r) (C.dim k), symb .dxdx k c (C.dim k) (C.dim c)], t.isAdd = false := by
      intro t ht
      simp only [List.mem_cons, List.not_mem_nil, or_false] at ht
      rcases ht with rfl | rfl <;> rfl
    refine ⟨hc3 2, ?_, ⟨_, by rw [mk, mulTerms, hn]; rfl⟩, ⟨_, by rw [mk, mulTerms, hn]; rfl⟩, fun u hu ha => ?_, fun hfx => ?_⟩
    · simp [mk, mulTerms, occs, occ, symb]
    · exact absurd (had u hu) (by simp [ha])
    · by_cases hk : k = c
      · subst hk
        exact red_first (q := q + 2) (n := g) hrk' hkc' (name_ne _ _)
      · by_cases hk' : k = r
        · subst hk'
          obtain ⟨d, hd⟩ := hF k c hrk hfx hk
          refine red_last (q := q + 2) (n := g) hd hne hrk' (name_ne _ _) ?_
          rw [ne_eq, sy_inj]
          exact fun e => hk (Fin.ext e.2.2.symm)
        · refine red_mid (q := q + 2) (n := g + 1) (x := symb .dxdx r k (C.dim r) (C.dim k))
            (y := symb .dxdx k c (C.dim k) (C.dim c)) hne (name_ne _ _) (hc3 _) (by rw [mk, mulTerms, hn]; rfl)
            (by rw [mk, mulTerms, hn]; rfl) ⟨.sym (sy .dxdx r c), ?_⟩ ⟨.sym (sy .dxdx r c), ?_⟩
            (fun u hu ha => absurd (had u hu) (by simp [ha]))
          · have h1 : ¬ c.val = k.val := fun e => hk (Fin.ext e.symm)
            simp only [occ_symb, occ, true_and, true_iff]
            exact h1
          · have h1 : ¬ r.val = k.val := fun e => hk' (Fin.ext e.symm)
            simp only [occ_symb, occ, true_and, true_iff, and_true]
            exact h1
  | t :: u :: l, _ =>
    have hca : cls false 3 (.add false (C.dim r) (C.dim c) (t :: u :: l)) := hcl
    have hone : nonScalar [.add false (C.dim r) (C.dim c) (t :: u :: l)] = [.add false (C.dim r) (C.dim c) (t :: u :: l)] := by
      rw [nonScalar_cons_f (add_scalar hne)]
      rfl
    have ho : ∃ nm, ¬ (occ nm (atom (.sym (sy .dxdx r c)) (C.dim r) (C.dim c)) ↔
        occ nm (.add false (C.dim r) (C.dim c) (t :: u :: l))) := by
      obtain ⟨i, j, hij, h1, h2⟩ := (List.pairwise_cons.mp htwo).1 u (by simp)
      by_cases hi : i = c
      · refine ⟨.sym (sy .dxdx r j), ?_⟩
        have : ¬ j.val = c.val := fun e => hij (by rw [hi]; exact Fin.ext e.symm)
        simp [occ, occs, h2, sy_inj, this]
      · refine ⟨.sym (sy .dxdx r i), ?_⟩
        have : ¬ i.val = c.val := fun e => hi (Fin.ext e)
        simp [occ, occs, h1, sy_inj, this]
    have hre : ∀ v ∈ [Blk.add false (C.dim r) (C.dim c) (t :: u :: l)], v.isAdd = true →
        (reduce (guarded (q + 4)) (g + 4) v).isSome = true := by
      intro v hv _
      rw [List.mem_singleton.mp hv]
      exact hred
    have hre' : ∀ v ∈ [Blk.add false (C.dim r) (C.dim c) (t :: u :: l)], v.isAdd = true →
        (reduce (guarded (q + 4)) (g + 5) v).isSome = true := by
      intro v hv _
      rw [List.mem_singleton.mp hv, ← hL]
      exact (red_sq hC (q := q + 2) (f := g + 4) (by omega) r c).2
    refine ⟨?_, ?_, ⟨_, (congrArg List.head? hone :)⟩, ⟨_, (congrArg List.getLast? hone :)⟩, hre, fun hfx => ?_⟩
    · intro v hv
      rw [List.mem_singleton.mp hv]
      exact hca
    · rintro (h | h)
      · obtain ⟨v, hv, h⟩ := occs_iff.mp h
        exact hid v hv h
      · exact h
    · refine red_mid (q := q + 2) (n := g + 1) hne (name_ne _ _) ?_ (congrArg List.head? hone)
        (congrArg List.getLast? hone) ho ho hre'
      intro v hv
      rw [List.mem_singleton.mp hv]
      exact cls_mono (by omega) hca

/-- Every block of the transition is reduced. -/
theorem abar_red (hC : NoOne C) (hF : Fixed C) {q f : ℕ} (hf : C.n + 10 ≤ f) (r c : Fin (C.n + 1)) :
    (reduce (guarded (q + 6)) f (mk (C.dim r) (C.dim c) (aTerms C r c))).isSome = true := by
  obtain ⟨g, rfl⟩ : ∃ g, f = g + 9 := ⟨f - 9, by omega⟩
  have hne := ne_left (hC.1 r) (C.dim c)
  have hT := (abar_mk hC r c).2
  have hsmall : (aTerms C r c).length ≤ 1 → (reduce (guarded (q + 6)) (g + 9) (mk (C.dim r) (C.dim c) (aTerms C r c))).isSome = true := by
    intro hl
    have : (mk (C.dim r) (C.dim c) (aTerms C r c)).isAdd = false := by
      match haT : aTerms C r c, hl with
      | [], _ => rfl
      | [t], _ => exact (hT t (by rw [haT]; simp)).noAdd
    rw [reduce_other this]
    rfl
  have hD : ∀ p, scl dtB (C.dim r) (C.dim c) (opt p (symb .dxdx r c (C.dim r) (C.dim c))) =
      opt p (.mul false true (C.dim r) (C.dim c) [dtB, symb .dxdx r c (C.dim r) (C.dim c)]) := by
    intro p
    cases p <;> rfl
  by_cases hS : sq C r c = []
  · have hQ : scl halfB (C.dim r) (C.dim c) (scl dtB (C.dim r) (C.dim c) (scl dtB (C.dim r) (C.dim c) (sq C r c))) = [] := by
      rw [hS]
      rfl
    by_cases hi : c = r
    · cases hfx : C.fx r c with
      | false =>
        refine hsmall ?_
        unfold aTerms
        rw [hQ, hD, hfx]
        simp [opt, hi]
      | true =>
        have : aTerms C r c = [atom .ident (C.dim r) (C.dim c),
            .mul false true (C.dim r) (C.dim c) [dtB, symb .dxdx r c (C.dim r) (C.dim c)]] := by
          unfold aTerms
          rw [hQ, hD, hfx, decide_eq_true hi]
          rfl
        rw [this]
        exact red_near (q := q + 4) (n := g + 4) hne
    · refine hsmall ?_
      unfold aTerms
      rw [hQ, hD, decide_eq_false hi]
      cases C.fx r c <;> simp [opt]
  · have hsq := square hC hF (q := q + 2) (f := g + 6) (by omega) r c hS
    have hre := (square hC hF (q := q + 2) (f := g + 8) (by omega) r c hS).red
    have hQ : scl halfB (C.dim r) (C.dim c) (scl dtB (C.dim r) (C.dim c) (scl dtB (C.dim r) (C.dim c) (sq C r c))) =
        [.mul false true (C.dim r) (C.dim c) (halfB :: dtB :: dtB :: (mk (C.dim r) (C.dim c) (sq C r c)).mulTerms)] := by
      unfold scl
      rw [if_neg hS]
      rfl
    generalize (mk (C.dim r) (C.dim c) (sq C r c)).mulTerms = X at *
    obtain ⟨x, hx⟩ := hsq.head
    obtain ⟨y, hy⟩ := hsq.last
    have hcl : ∀ m, ∀ t ∈ X, cls false (m + 2 + 1) t := fun m t ht => cls_mono (by omega) (hsq.cl t ht)
    by_cases hi : c = r
    · cases hfx : C.fx r c with
      | false =>
        have : aTerms C r c = [atom .ident (C.dim r) (C.dim c),
            .mul false true (C.dim r) (C.dim c) (halfB :: dtB :: dtB :: X)] := by
          unfold aTerms
          rw [hQ, hD, hfx, decide_eq_true hi]
          rfl
        rw [this]
        exact red_far (q := q + 4) (n := g + 4) hne (hcl (q + 2)) hsq.id hx hy hre
      | true =>
        have : aTerms C r c = [atom .ident (C.dim r) (C.dim c),
            .mul false true (C.dim r) (C.dim c) [dtB, symb .dxdx r c (C.dim r) (C.dim c)],
            .mul false true (C.dim r) (C.dim c) (halfB :: dtB :: dtB :: X)] := by
          unfold aTerms
          rw [hQ, hD, hfx, decide_eq_true hi]
          rfl
        rw [this]
        exact red_three (q := q + 2) (n := g + 2) hne (hcl q) (name_ne _ _) hsq.id (hsq.mid hfx)
    · cases hfx : C.fx r c with
      | false =>
        refine hsmall ?_
        unfold aTerms
        rw [hQ, hD, hfx, decide_eq_false hi]
        simp [opt]
      | true =>
        have : aTerms C r c = [.mul false true (C.dim r) (C.dim c) [dtB, symb .dxdx r c (C.dim r) (C.dim c)],
            .mul false true (C.dim r) (C.dim c) (halfB :: dtB :: dtB :: X)] := by
          unfold aTerms
          rw [hQ, hD, hfx, decide_eq_false hi]
          rfl
        rw [this]
        exact red_two (q := q + 4) (n := g + 3) hne (hcl (q + 2)) (name_ne _ _) (hsq.mid hfx)

end Verif.Props.EkfGen
