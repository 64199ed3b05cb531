import Verif.Props.EkfGenForm

/-!
The blocks of the transition are reduced.
-/

namespace Verif.Props.EkfGen

open Verif.Model.Symb Verif.Model.Symb.Blk Verif.Model.EkfGen Verif.Spec.Symb Verif.Spec.EkfGen Verif.Lemmas.Symb
open Verif.Props.Symb

/-- A constant block. -/
abbrev atom (k : Name) (a b : Dim) : Blk := .const false k a b

theorem atom_scalar {k : Name} {a b : Dim} (h : (a, b) ≠ one1) : (atom k a b).isScalar = false := decide_eq_false h
theorem add_scalar {a b : Dim} {l : List Blk} (h : (a, b) ≠ one1) : (Blk.add false a b l).isScalar = false := decide_eq_false h
theorem dt_scalar : dtB.isScalar = true := rfl
theorem half_scalar : halfB.isScalar = true := rfl

theorem nonScalar_cons_f {x : Blk} {l : List Blk} (h : x.isScalar = false) : nonScalar (x :: l) = x :: nonScalar l := by
  unfold nonScalar
  rw [List.filter_cons]
  simp [h]

theorem nonScalar_cons_t {x : Blk} {l : List Blk} (h : x.isScalar = true) : nonScalar (x :: l) = nonScalar l := by
  unfold nonScalar
  rw [List.filter_cons]
  simp [h]

theorem cls_mul {K : Bool} {n : ℕ} {neg cm : Bool} {a b : Dim} {l : List Blk} (h : cm = true → K = false)
    (hl : ∀ t ∈ l, cls K n t) : cls K (n + 1) (.mul neg cm a b l) := ⟨h, hl⟩

theorem cls_mono {K : Bool} : ∀ {n m : ℕ} {t : Blk}, n ≤ m → cls K n t → cls K m t
  | 0, _, _, _, h => h.elim
  | n + 1, 0, _, hm, _ => absurd hm (by omega)
  | n + 1, m + 1, t, hm, h => by
    cases t with
    | const => trivial
    | tr => exact h
    | mul => exact ⟨h.1, fun t ht => cls_mono (by omega) (h.2 t ht)⟩
    | add => exact fun t ht => cls_mono (by omega) (h t ht)

/-- An identity and a product with scalars. -/
theorem apart_ident {q : ℕ} {a b : Dim} {l : List Blk} {x y : Blk} {m : List Blk} (hne : (a, b) ≠ one1)
    (hc : ∀ t ∈ l, cls false (q + 1) t) (ho : ¬ occs .ident l) (hm : nonScalar l = m) (hx : m.head? = some x)
    (hy : m.getLast? = some y) : Apart (guardEq (q + 2)) (atom .ident a b) (.mul false true a b l) := by
  have hc' : cls false (q + 2) (.mul false true a b l) := cls_mul (fun _ => rfl) hc
  have hI : cls false (q + 2) (atom .ident a b) := trivial
  have hxm : x ∈ l := by
    have : x ∈ m := List.mem_of_mem_head? hx
    rw [← hm] at this
    exact List.mem_of_mem_filter this
  have hym : y ∈ l := by
    have : y ∈ m := List.mem_of_getLast? hy
    rw [← hm] at this
    exact List.mem_of_mem_filter this
  have hn : ∀ t ∈ l, ¬ occ .ident t := fun t ht h => ho (occs_iff.mpr ⟨t, ht, h⟩)
  have hi : nonScalar [atom .ident a b] = [atom .ident a b] := by
    rw [nonScalar_cons_f (atom_scalar hne)]
    rfl
  refine ⟨⟨guardEq_false (nm := .ident) hI hc' ?_, guardEq_false (nm := .ident) hc' hI ?_⟩, ?_, ?_, ?_⟩
  · simp [occ, ho]
  · simp [occ, ho]
  · intro _ _ _ _ _ _ _ _ _ _ h
    cases h
  · unfold NoFirst
    rw [sameFirst_of (l := [atom .ident a b]) (m := l) rfl rfl (by rw [hi]; rfl) (hm ▸ hx)]
    exact guardEq_false (nm := .ident) hI (cls_mono (by omega) (hc x hxm)) (by simp [occ, hn x hxm])
  · unfold NoLast
    rw [sameLast_of (l := [atom .ident a b]) (m := l) rfl rfl (by rw [hi]; rfl) (hm ▸ hy)]
    exact guardEq_false (nm := .ident) hI (cls_mono (by omega) (hc y hym)) (by simp [occ, hn y hym])

theorem pair_list {P : Blk → Blk → Prop} {x y : Blk} (h : P x y) : [x, y].Pairwise P := by simp [h]

/-- `I + dt B / 2`. -/
theorem red_end {q n k : ℕ} {c : Dim} (hc : (c, c) ≠ one1) :
    (reduce (guarded (q + 2)) (n + 5) (.add false c c [atom .ident c c, .mul false true c c [halfB, dtB, atom (.sym k) c c]])).isSome =
      true := by
  refine reduce_apart (n := n + 4) (pair_list (apart_ident (m := [atom (.sym k) c c]) (x := atom (.sym k) c c) (y := atom (.sym k) c c)
    hc ?_ ?_ ?_ rfl rfl)) (by simp) ?_ _ _ _
  · intro t ht
    simp only [List.mem_cons, List.not_mem_nil, or_false] at ht
    rcases ht with rfl | rfl | rfl <;> trivial
  · simp [occs, occ, halfB, dtB, symb]
  · rw [nonScalar_cons_t half_scalar, nonScalar_cons_t dt_scalar, nonScalar_cons_f (atom_scalar hc)]
    rfl
  · intro t ht
    simp only [List.mem_cons, List.not_mem_nil, or_false] at ht
    rcases ht with rfl | rfl
    · rfl
    · refine reduceTerm_mul fun u hu ha => ?_
      simp only [List.mem_cons, List.not_mem_nil, or_false] at hu
      rcases hu with rfl | rfl | rfl <;> simp [isAdd, halfB, dtB, symb] at ha

theorem cls_iter {K : Bool} {n : ℕ} {t : Blk} {l : List Blk} (h : t.iter = some l) (hc : cls K n t) : ∀ x ∈ l, cls K n x := by
  intro x hx
  cases n with
  | zero => exact hc.elim
  | succ n =>
    cases t <;> simp only [iter, Option.some.injEq, reduceCtorEq] at h <;> subst h
    · rw [List.mem_singleton.mp hx]
      trivial
    · exact cls_mono (by omega) (hc.2 x hx)
    · exact cls_mono (by omega) (hc x hx)

/-- Two terms are apart if names tell them, their first and their last factors. -/
theorem apart_gen {K : Bool} {n : ℕ} {t u x x' y y' : Blk} {l m : List Blk} (ht : t.iter = some l) (hu : u.iter = some m)
    (hct : cls K n t) (hcu : cls K n u) (hx : (nonScalar l).head? = some x) (hx' : (nonScalar m).head? = some x')
    (hy : (nonScalar l).getLast? = some y) (hy' : (nonScalar m).getLast? = some y') (h0 : ∃ nm, ¬ (occ nm t ↔ occ nm u))
    (h1 : ∃ nm, ¬ (occ nm x ↔ occ nm x')) (h2 : ∃ nm, ¬ (occ nm y ↔ occ nm y')) (hs : NoScal (guardEq n) t u) :
    Apart (guardEq n) t u := by
  have mx : ∀ {z : Blk} {l : List Blk}, (nonScalar l).head? = some z → z ∈ l := fun h =>
    List.mem_of_mem_filter (List.mem_of_mem_head? h)
  have my : ∀ {z : Blk} {l : List Blk}, (nonScalar l).getLast? = some z → z ∈ l := fun h =>
    List.mem_of_mem_filter (List.mem_of_getLast? h)
  obtain ⟨n0, h0⟩ := h0
  obtain ⟨n1, h1⟩ := h1
  obtain ⟨n2, h2⟩ := h2
  refine ⟨⟨guardEq_false hct hcu h0, guardEq_false hcu hct fun e => h0 e.symm⟩, hs, ?_, ?_⟩
  · unfold NoFirst
    rw [sameFirst_of ht hu hx hx']
    exact guardEq_false (cls_iter ht hct _ (mx hx)) (cls_iter hu hcu _ (mx hx')) h1
  · unfold NoLast
    rw [sameLast_of ht hu hy hy']
    exact guardEq_false (cls_iter ht hct _ (my hy)) (cls_iter hu hcu _ (my hy')) h2

theorem noScal_atom {eq : Blk → Blk → Option Bool} {k : Name} {a b : Dim} {u : Blk} : NoScal eq (atom k a b) u := by
  intro _ _ _ _ _ _ _ _ _ _ h
  cases h

theorem nonScalar_atom {k : Name} {a b : Dim} (h : (a, b) ≠ one1) : nonScalar [atom k a b] = [atom k a b] := by
  rw [nonScalar_cons_f (atom_scalar h)]
  rfl

/-- The name of one half. -/
abbrev hName : Name := .sym (sy .half 0 0)

theorem occ_half : occ hName halfB := rfl

/-- `A + dt X / 2` where nothing can be taken out. -/
theorem red_mid {q n k : ℕ} {a b : Dim} {X : List Blk} {x y : Blk} (hne : (a, b) ≠ one1) (hk : Name.sym k ≠ hName)
    (hc : ∀ t ∈ X, cls false (q + 1) t) (hx : (nonScalar X).head? = some x) (hy : (nonScalar X).getLast? = some y)
    (h1 : ∃ nm, ¬ (occ nm (atom (.sym k) a b) ↔ occ nm x)) (h2 : ∃ nm, ¬ (occ nm (atom (.sym k) a b) ↔ occ nm y))
    (hr : ∀ u ∈ X, u.isAdd = true → (reduce (guarded (q + 2)) (n + 4) u).isSome = true) :
    (reduce (guarded (q + 2)) (n + 5) (.add false a b [atom (.sym k) a b, .mul false true a b (halfB :: dtB :: X)])).isSome = true := by
  refine reduce_apart (n := n + 4) (pair_list ?_) (by simp) ?_ _ _ _
  · refine apart_gen (K := false) (n := q + 2) (l := [atom (.sym k) a b]) (m := halfB :: dtB :: X) (x := atom (.sym k) a b)
      (y := atom (.sym k) a b) (x' := x) (y' := y) rfl rfl trivial (cls_mul (fun _ => rfl) ?_) ?_ ?_ ?_ ?_ ⟨hName, ?_⟩ h1 h2
      noScal_atom
    · intro t ht
      simp only [List.mem_cons] at ht
      rcases ht with rfl | rfl | ht
      · trivial
      · trivial
      · exact hc t ht
    · rw [nonScalar_atom hne]
      rfl
    · rw [nonScalar_cons_t half_scalar, nonScalar_cons_t dt_scalar, hx]
    · rw [nonScalar_atom hne]
      rfl
    · rw [nonScalar_cons_t half_scalar, nonScalar_cons_t dt_scalar, hy]
    · simp only [occ, occs, occ_half, true_or, iff_true]
      exact fun e => hk e.symm
  · intro t ht
    simp only [List.mem_cons, List.not_mem_nil, or_false] at ht
    rcases ht with rfl | rfl
    · rfl
    · refine reduceTerm_mul fun u hu ha => ?_
      simp only [List.mem_cons] at hu
      rcases hu with rfl | rfl | hu
      · simp [isAdd, halfB, symb] at ha
      · simp [isAdd, dtB, symb] at ha
      · exact hr u hu ha

theorem popFirst_cons_t {x : Blk} {l : List Blk} (h : x.isScalar = true) :
    popFirst (x :: l) = (popFirst l).map fun p => (p.1, x :: p.2) := by
  simp only [popFirst, h, if_true, Option.bind_eq_bind]
  cases popFirst l <;> rfl

theorem popFirst_cons_f {x : Blk} {l : List Blk} (h : x.isScalar = false) : popFirst (x :: l) = some (x, l) := by
  simp [popFirst, h]

theorem guarded_first (q : ℕ) : (guarded q).stripFirst = guardFirst := rfl
theorem guarded_last (q : ℕ) : (guarded q).stripLast = guardLast := rfl

/-- `A + dt A B / 2`. -/
theorem red_first {q n j k : ℕ} {a b : Dim} (hne : (a, b) ≠ one1) (hbb : (b, b) ≠ one1) (hk : Name.sym k ≠ hName) :
    (reduce (guarded (q + 2)) (n + 6) (.add false a b [atom (.sym k) a b,
      .mul false true a b [halfB, dtB, atom (.sym k) a b, atom (.sym j) b b]])).isSome = true := by
  have hcQ : cls false (q + 2) (.mul false true a b [halfB, dtB, atom (.sym k) a b, atom (.sym j) b b]) := by
    refine cls_mul (fun _ => rfl) fun t ht => ?_
    simp only [List.mem_cons, List.not_mem_nil, or_false] at ht
    rcases ht with rfl | rfl | rfl | rfl <;> trivial
  have hNe : Ne (guarded (q + 2)).eq (atom (.sym k) a b) (.mul false true a b [halfB, dtB, atom (.sym k) a b, atom (.sym j) b b]) := by
    have h : ¬ (occ hName (atom (.sym k) a b) ↔
        occ hName (.mul false true a b [halfB, dtB, atom (.sym k) a b, atom (.sym j) b b])) := by
      simp only [occ, occs, occ_half, true_or, iff_true]
      exact fun e => hk e.symm
    exact ⟨guardEq_false (K := false) trivial hcQ h, guardEq_false (K := false) hcQ trivial fun e => h e.symm⟩
  have hf := factor_apart (pair_list hNe)
  have hs := factorScalars_apart (n := n + 4) (pair_list (noScal_atom (eq := (guarded (q + 2)).eq) (k := .sym k) (a := a) (b := b)
    (u := .mul false true a b [halfB, dtB, atom (.sym k) a b, atom (.sym j) b b]))) (by simp) false a b
  have hap : Apart (guarded (q + 2)).eq (atom .ident b b) (.mul false true b b [halfB, dtB, atom (.sym j) b b]) := by
    refine apart_ident (m := [atom (.sym j) b b]) (x := atom (.sym j) b b) (y := atom (.sym j) b b) hbb ?_ ?_ ?_ rfl rfl
    · intro t ht
      simp only [List.mem_cons, List.not_mem_nil, or_false] at ht
      rcases ht with rfl | rfl | rfl <;> trivial
    · simp [occs, occ, halfB, dtB, symb]
    · rw [nonScalar_cons_t half_scalar, nonScalar_cons_t dt_scalar, nonScalar_cons_f (atom_scalar hbb)]
      rfl
  have hin := factorFirst_apart (R := guarded (q + 2)) (n := n + 3) (pair_list hap.first) (by simp) false b b
  have hsf : sameFirst (guarded (q + 2)).eq (atom (.sym k) a b)
      (.mul false true a b [halfB, dtB, atom (.sym k) a b, atom (.sym j) b b]) = some true := by
    rw [sameFirst_of (l := [atom (.sym k) a b]) (m := [halfB, dtB, atom (.sym k) a b, atom (.sym j) b b]) (x := atom (.sym k) a b)
      (y := atom (.sym k) a b) rfl rfl]
    · exact guardEq_const _ _ _ _
    · rw [nonScalar_atom hne]
      rfl
    · rw [nonScalar_cons_t half_scalar, nonScalar_cons_t dt_scalar, nonScalar_cons_f (atom_scalar hne)]
      rfl
  have hg1 : (guarded (q + 2)).stripFirst (atom (.sym k) a b) = some (atom (.sym k) a b, cI b) := by
    rw [guarded_first, guardFirst, atom_scalar hne]
    rfl
  have hg2 : (guarded (q + 2)).stripFirst (.mul false true a b [halfB, dtB, atom (.sym k) a b, atom (.sym j) b b]) =
      some (atom (.sym k) a b, .mul false true b b [halfB, dtB, atom (.sym j) b b]) := by
    simp only [guarded_first, guardFirst, popFirst_cons_t half_scalar, popFirst_cons_t dt_scalar, popFirst_cons_f (atom_scalar hne),
      Option.map_some, Option.bind_eq_bind, Option.bind_some]
    rw [nonScalar_cons_t half_scalar, nonScalar_cons_t dt_scalar, nonScalar_cons_f (atom_scalar hbb)]
    rfl
  have hm1 : mkAdd (cI b) (.mul false true b b [halfB, dtB, atom (.sym j) b b]) =
      some (.add false b b [cI b, .mul false true b b [halfB, dtB, atom (.sym j) b b]]) := mkAdd_of rfl rfl
  have hm2 : mkMul (atom (.sym k) a b) (.add false b b [cI b, .mul false true b b [halfB, dtB, atom (.sym j) b b]]) =
      some (.mul false false a b [atom (.sym k) a b, .add false b b [cI b, .mul false true b b [halfB, dtB, atom (.sym j) b b]]]) := by
    have := times_mul (x := atom (.sym k) a b) (y := .add false b b [cI b, .mul false true b b [halfB, dtB, atom (.sym j) b b]])
      (nice_of rfl rfl rfl hne) (nice_of rfl rfl rfl hbb) rfl rfl hne hbb
    exact this.1
  have hff : factorFirst (guarded (q + 2)) (n + 5) (.add false a b [atom (.sym k) a b,
      .mul false true a b [halfB, dtB, atom (.sym k) a b, atom (.sym j) b b]]) = some (.mul false false a b [atom (.sym k) a b,
        .add false b b [cI b, .mul false true b b [halfB, dtB, atom (.sym j) b b]]]) := by
    refine factorFirst_one (n := n + 3) rfl ?_ rfl
    rw [ffJ_merge (tj := .mul false true a b [halfB, dtB, atom (.sym k) a b, atom (.sym j) b b]) rfl rfl hsf hg1 hg2 hm1 hin hm2]
    rfl
  refine reduce_mul hf (combine_of hs hff (factorLast_pair rfl)) fun u hu => ?_
  simp only [List.mem_cons, List.not_mem_nil, or_false] at hu
  rcases hu with rfl | rfl
  · rfl
  · rw [reduceTerm]
    exact red_end (q := q) (n := n) (k := j) (c := b) hbb

end Verif.Props.EkfGen
