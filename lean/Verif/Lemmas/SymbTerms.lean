import Verif.Lemmas.SymbEq
import Verif.Model.EkfGen

/-!
The form of sums and products of blocks.
-/

namespace Verif.Lemmas.Symb

open Verif.Model.Symb Verif.Model.Symb.Blk Verif.Model.EkfGen Verif.Spec.Symb Verif.Props.Symb

/-- The sum of a list of terms. -/
def mk (a b : Dim) : List Blk → Blk
  | [] => c0 a b
  | [t] => t
  | ts => .add false a b ts

/-- What a term of a sum is. -/
structure Term (a b : Dim) (t : Blk) : Prop where
  noAdd : t.isAdd = false
  shape : t.shape = (a, b)
  nz : t.isZero = false

def Terms (a b : Dim) (l : List Blk) : Prop := ∀ t ∈ l, Term a b t

variable {a b c : Dim} {l T L : List Blk} {x y : Blk}

theorem Terms.nil : Terms a b [] := fun _ h => absurd h List.not_mem_nil
theorem Terms.one {t : Blk} (h : Term a b t) : Terms a b [t] := fun u hu => by rw [List.mem_singleton.mp hu]; exact h
theorem Terms.append (h : Terms a b T) (h' : Terms a b L) : Terms a b (T ++ L) := fun t ht =>
  (List.mem_append.mp ht).elim (h t) (h' t)
theorem Terms.flatMap {α : Type} {s : List α} {f : α → List Blk} (h : ∀ i, Terms a b (f i)) : Terms a b (s.flatMap f) := by
  intro t ht
  obtain ⟨i, -, hi⟩ := List.mem_flatMap.mp ht
  exact h i t hi

theorem mk_two (h : 2 ≤ l.length) : mk a b l = .add false a b l := by
  match l, h with
  | [], h => simp at h
  | [_], h => simp at h
  | _ :: _ :: _, _ => rfl

theorem mk_shape (h : Terms a b l) : (mk a b l).shape = (a, b) := by
  match l, h with
  | [], _ => rfl
  | [t], h => exact (h t (by simp)).shape
  | _ :: _ :: _, _ => rfl

theorem mk_isZero (h : Terms a b l) : (mk a b l).isZero = l.isEmpty := by
  match l, h with
  | [], _ => rfl
  | [t], h => exact (h t (by simp)).nz
  | _ :: _ :: _, _ => rfl

theorem addTerms_of {t : Blk} (h : t.isAdd = false) : t.addTerms = [t] := by
  cases t <;> first | rfl | simp [isAdd] at h

theorem mk_addTerms (h : Terms a b l) (hne : l ≠ []) : (mk a b l).addTerms = l := by
  match l, h, hne with
  | [t], h, _ => exact addTerms_of (h t (by simp)).noAdd
  | _ :: _ :: _, _, _ => rfl

theorem plus_mk (hT : Terms a b T) (hL : Terms a b L) : plus (mk a b T) (mk a b L) = some (mk a b (T ++ L)) := by
  unfold plus
  rw [mk_shape hT, mk_shape hL, if_neg (by simp), mk_isZero hT, mk_isZero hL]
  by_cases h1 : T = []
  · subst h1
    rfl
  · by_cases h2 : L = []
    · subst h2
      simp [List.isEmpty_iff, h1]
    · have hl1 := List.length_pos_iff.mpr h1
      have hl2 := List.length_pos_iff.mpr h2
      simp only [List.isEmpty_iff, h1, h2, if_false]
      unfold mkAdd
      rw [mk_two (l := T ++ L) (by rw [List.length_append]; omega)]
      unfold Blk.rows Blk.cols
      rw [mk_shape hT, mk_shape hL, if_pos rfl, mk_addTerms hT h1, mk_addTerms hL h2]

theorem dotO_mk {k : ℕ} {A B : Fin k → Option Blk} {M : Fin k → List Blk} (hM : ∀ i, Terms a b (M i))
    (h : ∀ i, ∃ x y, A i = some x ∧ B i = some y ∧ times x y = some (mk a b (M i))) :
    ∀ (s : List (Fin k)) {T : List Blk}, Terms a b T →
      dotO (mk a b T) (s.map fun i => (A i, B i)) = some (mk a b (T ++ s.flatMap M))
  | [], T, _ => by simp [dotO]
  | i :: s, T, hT => by
    obtain ⟨x, y, hx, hy, hp⟩ := h i
    simp only [List.map_cons, dotO, hx, hy, hp, Option.bind_eq_bind, Option.bind_some, plus_mk hT (hM i)]
    rw [dotO_mk hM h s (hT.append (hM i)), List.flatMap_cons, List.append_assoc]

theorem mulM_mk {m k n : ℕ} {A : OMat m (k + 1)} {B : OMat (k + 1) n} {r : Fin m} {c : Fin n} {M : Fin (k + 1) → List Blk}
    {X Y : Fin (k + 1) → Blk} (hM : ∀ i, Terms a b (M i)) (hX : ∀ i, A r i = some (X i)) (hY : ∀ i, B i c = some (Y i))
    (ha : (X 0).rows = a) (hb : (Y 0).cols = b) (h : ∀ i, times (X i) (Y i) = some (mk a b (M i))) :
    mulM A B r c = some (mk a b ((List.finRange (k + 1)).flatMap M)) := by
  unfold mulM
  simp only [hX, hY, Option.bind_eq_bind, Option.bind_some, ha, hb]
  exact dotO_mk (A := fun _ => some _) hM (fun i => ⟨X i, Y i, rfl, rfl, h i⟩) _ Terms.nil

/-! ### Products -/

/-- A block that can be a factor: the first of its factors that is not a scalar and the last have the right sizes. -/
structure Nice (a b : Dim) (x : Blk) : Prop where
  shape : x.shape = (a, b)
  nz : x.isZero = false
  first : ∃ f, (nonScalar x.mulTerms).head? = some f ∧ f.rows = a
  last : ∃ f, x.mulTerms.getLast? = some f ∧ f.cols = b

theorem Nice.noScalar (h : Nice a b x) (hne : (a, b) ≠ one1) : x.isScalar = false := by
  unfold isScalar
  rw [h.shape]
  exact decide_eq_false hne

theorem nice_of (hs : x.shape = (a, b)) (hz : x.isZero = false) (hm : x.mulTerms = [x]) (hne : (a, b) ≠ one1) : Nice a b x := by
  have hn : x.isScalar = false := by
    unfold isScalar
    rw [hs]
    exact decide_eq_false hne
  refine ⟨hs, hz, ⟨x, ?_, ?_⟩, ⟨x, ?_, ?_⟩⟩
  · rw [hm]
    simp [nonScalar, hn]
  · unfold Blk.rows
    rw [hs]
  · rw [hm]
    rfl
  · unfold Blk.cols
    rw [hs]

theorem head_append {p q : List Blk} {f : Blk} (h : p.head? = some f) : (p ++ q).head? = some f := by
  cases p with
  | nil => simp at h
  | cons => simpa using h

theorem getLast_append {p q : List Blk} {f : Blk} (h : q.getLast? = some f) : (p ++ q).getLast? = some f := by
  rw [List.getLast?_append, h]
  rfl

theorem times_zero_left (hx : x = c0 a b) (hne : (a, b) ≠ one1) (hy : y.shape = (b, c)) (hne' : (b, c) ≠ one1) :
    times x y = some (c0 a c) := by
  subst hx
  unfold times
  rw [if_pos (by simp [c0, isZero])]
  have h1 : (c0 a b).isScalar = false := decide_eq_false hne
  have h2 : y.isScalar = false := by
    unfold isScalar
    rw [hy]
    exact decide_eq_false hne'
  unfold Blk.cols
  rw [h1, h2, hy]
  rfl

theorem times_zero_right (hx : x.shape = (a, b)) (hne : (a, b) ≠ one1) (hy : y = c0 b c) (hne' : (b, c) ≠ one1) :
    times x y = some (c0 a c) := by
  subst hy
  unfold times
  rw [if_pos (by simp [c0, isZero])]
  have h2 : (c0 b c).isScalar = false := decide_eq_false hne'
  have h1 : x.isScalar = false := by
    unfold isScalar
    rw [hx]
    exact decide_eq_false hne
  unfold Blk.rows
  rw [h1, h2, hx]
  rfl

theorem times_mul (hx : Nice a b x) (hy : Nice b c y) (hix : x.isIdent = false) (hiy : y.isIdent = false)
    (hne : (a, b) ≠ one1) (hne' : (b, c) ≠ one1) :
    times x y = some (.mul false false a c (x.mulTerms ++ y.mulTerms)) ∧
      Nice a c (.mul false false a c (x.mulTerms ++ y.mulTerms)) := by
  obtain ⟨f, hf, hfr⟩ := hx.first
  obtain ⟨g, hg, hgc⟩ := hy.last
  have hf' : (nonScalar (x.mulTerms ++ y.mulTerms)).head? = some f := by
    rw [nonScalar_append]
    exact head_append hf
  have hg' : (x.mulTerms ++ y.mulTerms).getLast? = some g := getLast_append hg
  constructor
  · unfold times
    rw [hx.nz, hy.nz, hix, hiy]
    simp only [Bool.or_self, Bool.false_and, Bool.false_eq_true, if_false]
    unfold mkMul mulShape Blk.rows Blk.cols
    rw [hx.noScalar hne, hy.noScalar hne', hx.shape, hy.shape]
    simp only [Bool.false_eq_true, if_false, if_true, Option.bind_eq_bind, Option.bind_some, hf', hg']
    unfold Blk.rows at hfr
    unfold Blk.cols at hgc
    rw [hfr, hgc]
    simp
  · exact ⟨rfl, rfl, ⟨f, hf', hfr⟩, ⟨g, hg', hgc⟩⟩

theorem times_ident_left (hx : x.isIdent = true) (hz : x.isZero = false) (hy : Nice b c y) (hne' : (b, c) ≠ one1) :
    times x y = some y := by
  unfold times
  rw [hz, hy.nz, hx, hy.noScalar hne']
  simp

theorem times_ident_right (hx : x.shape = (a, b)) (hz : x.isZero = false) (hi : x.isIdent = false) (hne : (a, b) ≠ one1)
    (hy : y.isIdent = true) (hyz : y.isZero = false) : times x y = some x := by
  have h1 : x.isScalar = false := by
    unfold isScalar
    rw [hx]
    exact decide_eq_false hne
  unfold times
  rw [hz, hyz, hi, hy, h1]
  simp

theorem times_scalar {s : Blk} (hs : s.isScalar = true) (hz : s.isZero = false) (hi : s.isIdent = false)
    (hm : s.mulTerms = [s]) (hx : Nice a b x) :
    times s x = some (.mul false true a b (s :: x.mulTerms)) ∧ Nice a b (.mul false true a b (s :: x.mulTerms)) := by
  obtain ⟨f, hf, hfr⟩ := hx.first
  obtain ⟨g, hg, hgc⟩ := hx.last
  have hf' : (nonScalar (s :: x.mulTerms)).head? = some f := by
    unfold nonScalar at hf ⊢
    rw [List.filter_cons, hs]
    exact hf
  have hg' : (s :: x.mulTerms).getLast? = some g := getLast_append (p := [s]) hg
  constructor
  · unfold times
    rw [hz, hx.nz, hi, hs]
    simp only [Bool.or_self, Bool.false_and, Bool.not_true, Bool.and_false, Bool.false_eq_true, if_false]
    unfold mkMul mulShape
    rw [hs, hx.shape, hm]
    simp only [if_true, Option.bind_eq_bind, Option.bind_some, List.singleton_append, hf', hg']
    rw [hfr, hgc]
    simp
  · exact ⟨rfl, rfl, ⟨f, hf', hfr⟩, ⟨g, hg', hgc⟩⟩

theorem nice_mk (hne : (a, b) ≠ one1) (h : ∀ t ∈ l, Nice a b t) (hl : l ≠ []) : Nice a b (mk a b l) := by
  match l, h, hl with
  | [t], h, _ => exact h t (by simp)
  | _ :: _ :: _, _, _ => exact nice_of rfl rfl rfl hne

theorem mk_noIdent (h : ∀ t ∈ l, t.isIdent = false) : (mk a b l).isIdent = false := by
  match l, h with
  | [], _ => rfl
  | [t], h => exact h t (by simp)
  | _ :: _ :: _, _ => rfl

/-- The terms of a sum after a scalar. -/
def scl (s : Blk) (a b : Dim) (l : List Blk) : List Blk :=
  if l = [] then [] else [.mul false true a b (s :: (mk a b l).mulTerms)]

theorem scl_ok {s : Blk} (hs : s.shape = one1) (hz : s.isZero = false) (hi : s.isIdent = false) (hm : s.mulTerms = [s])
    (hne : (a, b) ≠ one1) (h : ∀ t ∈ l, Nice a b t) :
    times s (mk a b l) = some (mk a b (scl s a b l)) ∧ ∀ t ∈ scl s a b l, Nice a b t ∧ Term a b t ∧ t.isIdent = false := by
  have hss : s.isScalar = true := by
    unfold isScalar
    rw [hs]
    rfl
  unfold scl
  by_cases hl : l = []
  · subst hl
    simp only [if_true]
    refine ⟨?_, fun t ht => absurd ht List.not_mem_nil⟩
    unfold times
    rw [if_pos (by simp [mk, c0, isZero])]
    have h2 : (mk a b []).isScalar = false := decide_eq_false hne
    rw [h2, hss]
    rfl
  · rw [if_neg hl]
    obtain ⟨h1, h2⟩ := times_scalar hss hz hi hm (nice_mk hne h hl)
    refine ⟨h1, fun t ht => ?_⟩
    rw [List.mem_singleton.mp ht]
    exact ⟨h2, ⟨rfl, rfl, rfl⟩, rfl⟩

end Verif.Lemmas.Symb
