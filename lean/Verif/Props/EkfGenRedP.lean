import Verif.Props.EkfGenPout

/-!
Every block of the propagated covariance is reduced.
-/

namespace Verif.Props.EkfGen

open Verif.Model.Symb Verif.Model.Symb.Blk Verif.Model.EkfGen Verif.Spec.Symb Verif.Spec.EkfGen Verif.Lemmas.Symb
open Verif.Props.Symb

variable {C : Cfg}

/-- A product without scalars, or a constant, with its first and its last factor. -/
structure Has (n : ℕ) (t : Blk) (x y : Blk) : Prop where
  ex : ∃ l, t.iter = some l ∧ Plain l ∧ l.head? = some x ∧ l.getLast? = some y
  cl : cls true n t
  noAdd : t.isAdd = false

theorem Has.mul {n : ℕ} {a b : Dim} {l : List Blk} {x y : Blk} (hl : Plain l) (hc : ∀ t ∈ l, cls true n t) (hx : l.head? = some x)
    (hy : l.getLast? = some y) : Has (n + 1) (.mul false false a b l) x y :=
  ⟨⟨l, rfl, hl, hx, hy⟩, cls_mul (by simp) hc, rfl⟩

theorem Has.symb {n : ℕ} {a b : Dim} (k : Kind) (r c : ℕ) (h : (a, b) ≠ one1) :
    Has (n + 1) (symb k r c a b) (symb k r c a b) (symb k r c a b) :=
  ⟨⟨[_], rfl, by intro t ht; rw [List.mem_singleton.mp ht]; exact symb_scalar h, rfl, rfl⟩, trivial, rfl⟩

theorem Has.noScal {n : ℕ} {t x y u : Blk} {eq : Blk → Blk → Option Bool} (h : Has n t x y) : NoScal eq t u := by
  obtain ⟨⟨l, hl, hp, -, -⟩, -, -⟩ := h
  intro _ _ _ _ us _ _ _ _ ws e _
  subst e
  simp only [iter, Option.some.injEq] at hl
  subst hl
  rw [hp.scalars]
  exact sameScalar_nil _

theorem Has.occ_first {n : ℕ} {t x y : Blk} {nm : Name} (h : Has n t x y) (ho : occ nm x) : occ nm t := by
  obtain ⟨⟨l, hl, hp, hx, -⟩, -, -⟩ := h
  exact (occs_iter hl).mpr (occs_iff.mpr ⟨x, List.mem_of_mem_head? hx, ho⟩)

theorem Has.occ_last {n : ℕ} {t x y : Blk} {nm : Name} (h : Has n t x y) (ho : occ nm y) : occ nm t := by
  obtain ⟨⟨l, hl, hp, -, hy⟩, -, -⟩ := h
  exact (occs_iter hl).mpr (occs_iff.mpr ⟨y, List.mem_of_getLast? hy, ho⟩)

theorem Has.apart {n : ℕ} {t u x y x' y' : Blk} (ht : Has n t x y) (hu : Has n u x' y') (h0 : ∃ nm, ¬ (occ nm t ↔ occ nm u))
    (h1 : ∃ nm, ¬ (occ nm x ↔ occ nm x')) (h2 : ∃ nm, ¬ (occ nm y ↔ occ nm y')) : Apart (guardEq n) t u := by
  obtain ⟨l, hl, hp, hx, hy⟩ := ht.ex
  obtain ⟨m, hm, hp', hx', hy'⟩ := hu.ex
  exact apart_gen hl hm ht.cl hu.cl (by rw [hp.nonScalar, hx]) (by rw [hp'.nonScalar, hx']) (by rw [hp.nonScalar, hy])
    (by rw [hp'.nonScalar, hy']) h0 h1 h2 ht.noScal

/-- The names of the blocks of the covariance, the transition and the input matrix. -/
abbrev pN (r c : ℕ) : Name := .sym (sy .cov r c)
abbrev fN (r c : ℕ) : Name := .sym (sy .abar r c)
abbrev gN (r c : ℕ) : Name := .sym (sy .bbar r c)

/-- Two terms that a block of the covariance tells apart. -/
def Sep (t u : Blk) : Prop := ∃ r c, ¬ (occ (pN r c) t ↔ occ (pN r c) u)

/-- No block of the input matrix. -/
def NoG (t : Blk) : Prop := ∀ r c, ¬ occ (gN r c) t

section
variable (C) (z : Fin (C.n + 1) → Fin (C.n + 1) → Bool) (d : Fin (C.n + 1) → Bool) (X : Fin (C.n + 1) → Blk) (E : List Blk)

/-- A factor before a transposed block of the transition. -/
def gS (r c l : Fin (C.n + 1)) : Blk :=
  .mul false false (C.dim r) (C.dim c) [X l, .tr false (symb .abar c l (C.dim c) (C.dim l))]

/-- Terms with a factor for every column, and other terms where the transition is the identity. -/
def gT (r c l : Fin (C.n + 1)) : List Blk :=
  if z c l then if c = l ∧ d c then E else [gS C X r c l] else []
def gTs (r c : Fin (C.n + 1)) : List Blk := (List.finRange (C.n + 1)).flatMap (gT C z d X E r c)

/-- What the factors are like. -/
structure Fac (n : ℕ) (r : Fin (C.n + 1)) : Prop where
  sc : ∀ l, (X l).isScalar = false
  cl : ∀ l, cls true n (X l)
  occ : ∀ l : Fin (C.n + 1), occ (pN r l) (X l)
  not : ∀ l l' : Fin (C.n + 1), l ≠ l' → ¬ Lemmas.Symb.occ (pN r l') (X l)
  noG : ∀ l, NoG (X l)

/-- What the other terms are like. -/
structure Oth (n : ℕ) (r c : Fin (C.n + 1)) : Prop where
  has : ∀ t ∈ E, ∃ x y, Has (n + 1) t x y ∧ ∀ l, ¬ occ (fN c l) y
  not : ∀ t ∈ E, ∀ l : Fin (C.n + 1), l ≠ c → ¬ occ (pN r l) t
  noG : ∀ t ∈ E, NoG t
  pair : E.Pairwise fun t u => Apart (guardEq (n + 1)) t u ∧ Sep t u
end

section
variable {z : Fin (C.n + 1) → Fin (C.n + 1) → Bool} {d : Fin (C.n + 1) → Bool} {X : Fin (C.n + 1) → Blk} {E : List Blk} {n : ℕ}
  {r c : Fin (C.n + 1)}

theorem mem_gT {l : Fin (C.n + 1)} {t : Blk} (h : t ∈ gT C z d X E r c l) :
    (c = l ∧ t ∈ E) ∨ t = gS C X r c l := by
  unfold gT at h
  split_ifs at h with h1 h2
  · exact .inl ⟨h2.1, h⟩
  · exact .inr (List.mem_singleton.mp h)
  · exact absurd h List.not_mem_nil

theorem tr_scalar (hC : NoOne C) (c l : Fin (C.n + 1)) : (Blk.tr false (symb .abar c l (C.dim c) (C.dim l))).isScalar = false :=
  decide_eq_false (ne_left (hC.1 l) _)

theorem has_gS (hC : NoOne C) (hX : Fac C X (n + 1) r) (l : Fin (C.n + 1)) :
    Has (n + 2) (gS C X r c l) (X l) (.tr false (symb .abar c l (C.dim c) (C.dim l))) := by
  refine Has.mul ?_ ?_ rfl rfl
  · intro t ht
    simp only [List.mem_cons, List.not_mem_nil, or_false] at ht
    rcases ht with rfl | rfl
    · exact hX.sc l
    · exact tr_scalar hC c l
  · intro t ht
    simp only [List.mem_cons, List.not_mem_nil, or_false] at ht
    rcases ht with rfl | rfl
    · exact hX.cl l
    · rfl

theorem occ_gS {l : Fin (C.n + 1)} {i j : ℕ} : occ (pN i j) (gS C X r c l) ↔ occ (pN i j) (X l) := by
  unfold gS
  simp [occ, occs, occ_symb]

theorem noG_gS (hX : Fac C X (n + 1) r) (l : Fin (C.n + 1)) : NoG (gS C X r c l) := by
  intro i j
  have := hX.noG l i j
  unfold gS
  simp [occ, occs, occ_symb, this]

theorem gS_gS (hC : NoOne C) (hX : Fac C X (n + 1) r) {l l' : Fin (C.n + 1)} (h : l ≠ l') :
    Apart (guardEq (n + 2)) (gS C X r c l) (gS C X r c l') ∧ Sep (gS C X r c l) (gS C X r c l') := by
  have h0 : ¬ (occ (pN r l) (X l) ↔ occ (pN r l) (X l')) := by
    simp [hX.occ l, hX.not l' l h.symm]
  have h1 : ¬ (occ (pN r l) (gS C X r c l) ↔ occ (pN r l) (gS C X r c l')) := by
    rw [occ_gS, occ_gS]
    exact h0
  refine ⟨(has_gS hC hX l).apart (has_gS hC hX l') ⟨_, h1⟩ ⟨_, h0⟩ ⟨fN c l, ?_⟩, r, l, h1⟩
  have : ¬ l.val = l'.val := fun e => h (Fin.ext e)
  simp [occ, occ_symb, this]

theorem gS_oth (hC : NoOne C) (hX : Fac C X (n + 1) r) (hE : Oth C E (n + 1) r c) {l : Fin (C.n + 1)} (h : l ≠ c) {t : Blk}
    (ht : t ∈ E) : (Apart (guardEq (n + 2)) (gS C X r c l) t ∧ Sep (gS C X r c l) t) ∧
      Apart (guardEq (n + 2)) t (gS C X r c l) ∧ Sep t (gS C X r c l) := by
  obtain ⟨x, y, hh, hy⟩ := hE.has t ht
  have hn := hE.not t ht l h
  have h0 : ¬ (occ (pN r l) (X l) ↔ occ (pN r l) x) := by
    have : ¬ occ (pN r l) x := fun e => hn (hh.occ_first e)
    simp [hX.occ l, this]
  have h1 : ¬ (occ (pN r l) (gS C X r c l) ↔ occ (pN r l) t) := by
    rw [occ_gS]
    simp [hX.occ l, hn]
  have h2 : ¬ (occ (fN c l) (.tr false (symb .abar c l (C.dim c) (C.dim l))) ↔ occ (fN c l) y) := by
    simp [occ, occ_symb, hy]
  exact ⟨⟨(has_gS hC hX l).apart hh ⟨_, h1⟩ ⟨_, h0⟩ ⟨_, h2⟩, r, l, h1⟩,
    hh.apart (has_gS hC hX l) ⟨_, fun e => h1 e.symm⟩ ⟨_, fun e => h0 e.symm⟩ ⟨_, fun e => h2 e.symm⟩, r, l, fun e => h1 e.symm⟩

/-- The terms have nothing in common. -/
theorem gTs_pair (hC : NoOne C) (hX : Fac C X (n + 1) r) (hE : Oth C E (n + 1) r c) :
    (gTs C z d X E r c).Pairwise fun t u => Apart (guardEq (n + 2)) t u ∧ Sep t u := by
  unfold gTs
  rw [List.pairwise_flatMap]
  constructor
  · intro l _
    unfold gT
    split_ifs with h1 h2
    · exact hE.pair
    · simp
    · simp
  · refine (List.nodup_finRange _).imp ?_
    intro i j hij t ht u hu
    rcases mem_gT ht with ⟨rfl, ht'⟩ | rfl
    · rcases mem_gT hu with ⟨rfl, hu'⟩ | rfl
      · exact absurd rfl hij
      · exact (gS_oth hC hX hE (fun e => hij e.symm) ht').2
    · rcases mem_gT hu with ⟨rfl, hu'⟩ | rfl
      · exact (gS_oth hC hX hE hij hu').1
      · exact gS_gS hC hX hij

theorem mem_gTs {t : Blk} (h : t ∈ gTs C z d X E r c) : t ∈ E ∨ ∃ l, t = gS C X r c l := by
  obtain ⟨l, -, hl⟩ := List.mem_flatMap.mp h
  rcases mem_gT hl with ⟨-, h⟩ | h
  · exact .inl h
  · exact .inr ⟨l, h⟩

theorem has_gTs (hC : NoOne C) (hX : Fac C X (n + 1) r) (hE : Oth C E (n + 1) r c) {t : Blk} (h : t ∈ gTs C z d X E r c) :
    (∃ x y, Has (n + 2) t x y) ∧ NoG t := by
  rcases mem_gTs h with h | ⟨l, rfl⟩
  · obtain ⟨x, y, hh, -⟩ := hE.has t h
    exact ⟨⟨x, y, hh⟩, hE.noG t h⟩
  · exact ⟨⟨_, _, has_gS hC hX l⟩, noG_gS hX l⟩

theorem length_gTs : (gTs C z d X E r c).length ≤ C.n + 1 + E.length := by
  have : ∀ s : List (Fin (C.n + 1)), s.Nodup → (s.flatMap (gT C z d X E r c)).length ≤ s.length + if c ∈ s then E.length else 0 := by
    intro s
    induction s with
    | nil => simp
    | cons a s ih =>
      intro hs
      have h1 := ih hs.of_cons
      have ha := (List.nodup_cons.mp hs).1
      rw [List.flatMap_cons, List.length_append, List.length_cons]
      by_cases hca : c = a
      · subst hca
        rw [if_neg ha] at h1
        rw [if_pos (by simp)]
        have : (gT C z d X E r c c).length ≤ E.length + 1 := by
          unfold gT
          split_ifs <;> simp
        omega
      · have : (gT C z d X E r c a).length ≤ 1 := by
          unfold gT
          split_ifs with h1 h2
          · exact absurd h2.1 hca
          · simp
          · simp
        have h2 : (c ∈ a :: s) ↔ c ∈ s := by simp [hca]
        simp only [h2]
        omega
  have h := this _ (List.nodup_finRange _)
  rw [List.length_finRange, if_pos (List.mem_finRange c)] at h
  exact h

/-! ### With the input noise -/

variable {g : Fin (C.n + 1) → Fin (C.m + 1) → Bool}

theorem has_uT (hC : NoOne C) (l : Fin (C.m + 1)) : Has (n + 2) (uT C r c l) (symb .bbar r l (C.dim r) (C.inp l))
    (.tr false (symb .bbar c l (C.dim c) (C.inp l))) := by
  refine Has.mul ?_ ?_ rfl rfl
  · intro t ht
    simp only [List.mem_cons, List.not_mem_nil, or_false] at ht
    rcases ht with rfl | rfl | rfl
    · exact symb_scalar (ne_left (hC.1 r) _)
    · exact symb_scalar (ne_left (hC.2 l) _)
    · exact decide_eq_false (ne_left (hC.2 l) _)
  · intro t ht
    simp only [List.mem_cons, List.not_mem_nil, or_false] at ht
    rcases ht with rfl | rfl | rfl
    · trivial
    · trivial
    · rfl

theorem uTs_pair (hC : NoOne C) : (uTs C g r c).Pairwise (Apart (guardEq (n + 2))) := by
  refine pairwise_opt fun i j _ _ hij => ?_
  have hij' : ¬ i.val = j.val := fun e => hij (Fin.ext e)
  refine (has_uT hC i).apart (has_uT hC j) ⟨gN r i, ?_⟩ ⟨gN r i, ?_⟩ ⟨gN c i, ?_⟩
  · unfold uT
    simp [occ, occs, occ_symb, hij']
  · simp [occ_symb, hij']
  · simp [occ, occ_symb, hij']

theorem mem_uTs {t : Blk} (h : t ∈ uTs C g r c) : ∃ l, t = uT C r c l := by
  obtain ⟨l, -, hl⟩ := List.mem_flatMap.mp h
  exact ⟨l, (mem_opt.mp hl).2⟩

theorem length_uTs : (uTs C g r c).length ≤ C.m + 1 := by
  have := length_flatMap_opt (p := fun l => g r l && g c l) (t := uT C r c) (List.finRange (C.m + 1))
  rw [List.length_finRange] at this
  exact this

/-- A term without blocks of the input matrix has nothing in common with those of the input noise. -/
theorem noG_uT (hC : NoOne C) {t x y : Blk} (h : Has (n + 2) t x y) (hn : NoG t) {u : Blk} (hu : u ∈ uTs C g r c) :
    Apart (guardEq (n + 2)) t u := by
  obtain ⟨l, rfl⟩ := mem_uTs hu
  have h1 : ¬ occ (gN r l) x := fun e => hn _ _ (h.occ_first e)
  have h2 : ¬ occ (gN c l) y := fun e => hn _ _ (h.occ_last e)
  refine h.apart (has_uT hC l) ⟨gN r l, ?_⟩ ⟨gN r l, ?_⟩ ⟨gN c l, ?_⟩
  · have := hn r l
    unfold uT
    simp [occ, occs, occ_symb, this]
  · simp [occ_symb, h1]
  · simp [occ, occ_symb, h2]

theorem all_pair (hC : NoOne C) {L : List Blk} (hp : L.Pairwise (Apart (guardEq (n + 2))))
    (hh : ∀ t ∈ L, (∃ x y, Has (n + 2) t x y) ∧ NoG t) : (L ++ uTs C g r c).Pairwise (Apart (guardEq (n + 2))) := by
  rw [List.pairwise_append]
  refine ⟨hp, uTs_pair hC, fun t ht u hu => ?_⟩
  obtain ⟨⟨x, y, h⟩, hn⟩ := hh t ht
  exact noG_uT hC h hn hu

theorem red_uT {rec : Blk → Option Blk} {u : Blk} (hu : u ∈ uTs C g r c) : (reduceTerm rec u).isSome = true := by
  obtain ⟨l, rfl⟩ := mem_uTs hu
  refine reduceTerm_plain fun t ht => ?_
  simp only [List.mem_cons, List.not_mem_nil, or_false] at ht
  rcases ht with rfl | rfl | rfl <;> rfl

end

end Verif.Props.EkfGen
