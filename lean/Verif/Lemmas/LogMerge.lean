import Verif.Lemmas.Logging
import Verif.Spec.Logging
/-!
# The replay loop merges its streams
-/
namespace Verif.Log
open Verif.LogSpec

theorem lt_iff (a b : Stamp) : a.lt b = true ↔
    a.sec.toInt < b.sec.toInt ∨ (a.sec.toInt = b.sec.toInt ∧ a.nsec.toInt < b.nsec.toInt) := by
  simp only [Stamp.lt, Utc.lt]
  split
  · simp [*]
  · split
    · simp; omega
    · split
      · simp; omega
      · simp; omega

theorem notLater_of_not_lt {a b : Stamp} (h : a.lt b = false) : NotLater b a := by
  have h' : ¬ (a.lt b = true) := by simp [h]
  rw [lt_iff] at h'
  unfold NotLater
  omega

theorem notLater_refl (a : Stamp) : NotLater a a := by unfold NotLater; omega

theorem notLater_trans {a b c : Stamp} (h : NotLater a b) (h' : NotLater b c) : NotLater a c := by
  unfold NotLater at *; omega

theorem max_sec : MAX_TIME.sec.toInt = 2 ^ 63 - 1 := by decide +kernel
theorem max_nsec : MAX_TIME.nsec.toInt = 0 := by decide +kernel

theorem inTime_lt {a : Stamp} (h : InTime a) : a.lt MAX_TIME = true := by
  rw [lt_iff, max_sec, max_nsec]; left; exact h

theorem inTime_ne {a : Stamp} (h : InTime a) : a ≠ MAX_TIME := by
  rintro rfl
  have := max_sec
  unfold InTime at h
  omega

theorem lowest_spec {S : Type} (next : S → Stamp) (ss : List S) (i : Nat)
    (acc : Stamp × Option Nat) :
    (lowest next ss i acc = acc ∧ ∀ s ∈ ss, (next s).lt acc.1 = false) ∨
    ∃ A s B, ss = A ++ s :: B ∧ lowest next ss i acc = (next s, some (i + A.length)) ∧
      (next s).lt acc.1 = true ∧ ∀ s' ∈ ss, (next s').lt (next s) = false := by
  induction ss generalizing i acc with
  | nil => left; exact ⟨rfl, by simp⟩
  | cons a ss ih =>
    rw [lowest]
    by_cases ha : (next a).lt acc.1 = true
    · rw [if_pos ha]
      rcases ih (i + 1) (next a, some i) with ⟨h1, h2⟩ | ⟨A, s, B, h1, h2, h3, h4⟩
      · right
        refine ⟨[], a, ss, rfl, by simpa using h1, ha, ?_⟩
        intro s' hs'
        rcases List.mem_cons.1 hs' with rfl | hs'
        · rw [Bool.eq_false_iff, ne_eq, lt_iff]; omega
        · exact h2 s' hs'
      · right
        refine ⟨a :: A, s, B, by rw [h1]; rfl, by rw [h2]; simp; omega, ?_, ?_⟩
        · rw [lt_iff] at *; simp only at h3; omega
        · intro s' hs'
          rcases List.mem_cons.1 hs' with rfl | hs'
          · rw [Bool.eq_false_iff, ne_eq]
            rw [lt_iff] at *; simp only at h3; omega
          · exact h4 s' hs'
    · rw [if_neg ha]
      rcases ih (i + 1) acc with ⟨h1, h2⟩ | ⟨A, s, B, h1, h2, h3, h4⟩
      · left
        refine ⟨h1, ?_⟩
        intro s' hs'
        rcases List.mem_cons.1 hs' with rfl | hs'
        · simpa using ha
        · exact h2 s' hs'
      · right
        refine ⟨a :: A, s, B, by rw [h1]; rfl, by rw [h2]; simp; omega, h3, ?_⟩
        intro s' hs'
        rcases List.mem_cons.1 hs' with rfl | hs'
        · rw [Bool.eq_false_iff, ne_eq]
          rw [lt_iff] at *; omega
        · exact h4 s' hs'

theorem setAt_append {S : Type} (A : List S) (s t : S) (B : List S) :
    setAt t A.length (A ++ s :: B) = A ++ t :: B := by
  induction A with
  | nil => rfl
  | cons a A ih => simp [setAt, ih]

section
variable {S P M : Type} (next : S → Stamp) (get : S → P × S)

/-- The stream still holds exactly these records. -/
def Reads : S → List (Stamp × P) → Prop
  | s, [] => next s = MAX_TIME
  | s, r :: rs => next s = r.1 ∧ InTime r.1 ∧ (get s).1 = r.2 ∧ Reads (get s).2 rs

/-- Streams with their remaining records. -/
def ReadsAll (ss : List (Int × S)) (srcs : List (Int × List (Stamp × P))) : Prop :=
  List.Forall₂ (fun s r => s.1 = r.1 ∧ Reads next get s.2 r.2) ss srcs

def total (srcs : List (Int × List (Stamp × P))) : Nat := (srcs.map fun s => s.2.length).sum

theorem total_append (A B : List (Int × List (Stamp × P))) :
    total (A ++ B) = total A + total B := by simp [total]

theorem total_cons (a : Int × List (Stamp × P)) (B : List (Int × List (Stamp × P))) :
    total (a :: B) = a.2.length + total B := by simp [total]

theorem forall₂_split {α β : Type} {R : α → β → Prop} {A : List α} {x : α} {B : List α}
    {l : List β} (h : List.Forall₂ R (A ++ x :: B) l) :
    ∃ C y D, l = C ++ y :: D ∧ List.Forall₂ R A C ∧ R x y ∧ List.Forall₂ R B D := by
  induction A generalizing l with
  | nil =>
    cases h with
    | cons h1 h2 => exact ⟨[], _, _, rfl, .nil, h1, h2⟩
  | cons a A ih =>
    cases h with
    | cons h1 h2 =>
      obtain ⟨C, y, D, rfl, h3, h4, h5⟩ := ih h2
      exact ⟨_ :: C, y, D, rfl, .cons h1 h3, h4, h5⟩

theorem forall₂_append {α β : Type} {R : α → β → Prop} {A B : List α} {C D : List β}
    (h : List.Forall₂ R A C) (h' : List.Forall₂ R B D) : List.Forall₂ R (A ++ B) (C ++ D) := by
  induction h with
  | nil => exact h'
  | cons h1 _ ih => exact .cons h1 ih

theorem forall₂_mem {α β : Type} {R : α → β → Prop} {A : List α} {C : List β}
    (h : List.Forall₂ R A C) {y : β} (hy : y ∈ C) : ∃ x ∈ A, R x y := by
  induction h with
  | nil => simp at hy
  | cons h1 _ ih =>
    rcases List.mem_cons.1 hy with rfl | hy
    · exact ⟨_, by simp, h1⟩
    · obtain ⟨x, hx, hr⟩ := ih hy; exact ⟨x, by simp [hx], hr⟩

theorem mem_of_merge {srcs : List (Int × List (Stamp × P))} {out : List (Int × Stamp × P)}
    (h : IsMerge srcs out) {o : Int × Stamp × P} (ho : o ∈ out) :
    ∃ s ∈ srcs, ∃ r ∈ s.2, o = (s.1, r) := by
  have := (h.once.mem_iff).1 ho
  simp only [List.mem_flatMap, List.mem_map] at this
  obtain ⟨s, hs, r, hr, e⟩ := this
  exact ⟨s, hs, r, hr, e.symm⟩

theorem merge_step {C D : List (Int × List (Stamp × P))} {k : Int} {r : Stamp × P}
    {rs : List (Stamp × P)} {out : List (Int × Stamp × P)}
    (nd : ((C ++ (k, r :: rs) :: D).map Prod.fst).Nodup)
    (h : IsMerge (C ++ (k, rs) :: D) out) :
    IsMerge (C ++ (k, r :: rs) :: D) ((k, r) :: out) := by
  constructor
  · have h1 := h.once
    simp only [List.flatMap_append, List.flatMap_cons, List.map_cons, List.cons_append] at h1 ⊢
    exact (h1.cons _).trans List.perm_middle.symm
  · intro s hs
    have hnot : ∀ s' ∈ C ++ D, s'.1 ≠ k := by
      intro s' hs' e
      rw [List.map_append, List.map_cons] at nd
      have h2 := (List.perm_middle.nodup_iff).1 nd
      rw [List.nodup_cons, ← List.map_append] at h2
      exact h2.1 (e ▸ List.mem_map.2 ⟨s', hs', rfl⟩)
    rcases List.mem_append.1 hs with hc | hd
    · have := h.order s (by simp [hc])
      have hk : s.1 ≠ k := hnot s (by simp [hc])
      rw [List.filter_cons_of_neg (by simpa using fun e => hk e.symm)]
      exact this
    · rcases List.mem_cons.1 hd with rfl | hd
      · have := h.order (k, rs) (by simp)
        rw [List.filter_cons_of_pos (by simp), List.map_cons, this]
      · have := h.order s (by simp [hd])
        have hk : s.1 ≠ k := hnot s (by simp [hd])
        rw [List.filter_cons_of_neg (by simpa using fun e => hk e.symm)]
        exact this

/-- The loop without maintenance exit delivers an interleaving, sorted if the sources are. -/
theorem readLoop_merge (maint : M → Stamp → M × Bool) (hm : ∀ m t, (maint m t).2 = false)
    (fuel : Nat) (m : M) (ss : List (Int × S)) (srcs : List (Int × List (Stamp × P)))
    (nd : (srcs.map Prod.fst).Nodup) (h : ReadsAll next get ss srcs) (hf : total srcs < fuel) :
    ∃ out, readLoop next get maint fuel m ss = some out ∧ IsMerge srcs out ∧
      ((∀ s ∈ srcs, s.2.Pairwise fun a b => NotLater a.1 b.1) →
        out.Pairwise fun a b => NotLater a.2.1 b.2.1) := by
  induction fuel generalizing m ss srcs with
  | zero => omega
  | succ fuel ih =>
    rw [readLoop]
    rcases lowest_spec (fun s : Int × S => next s.2) ss 0 (MAX_TIME, none) with
      ⟨h1, h2⟩ | ⟨A, s, B, h1, h2, h3, h4⟩
    · rw [h1]
      have hz : ∀ s ∈ srcs, s.2 = [] := by
        intro s hs
        obtain ⟨x, hx, _, hr⟩ := forall₂_mem h hs
        have := h2 x hx
        rcases hs2 : s.2 with _ | ⟨r, rs⟩
        · rfl
        · rw [hs2] at hr
          obtain ⟨e, hi, _⟩ := hr
          rw [e, inTime_lt hi] at this
          simp at this
      refine ⟨[], rfl, ⟨?_, ?_⟩, fun _ => .nil⟩
      · have : srcs.flatMap (fun s => s.2.map fun r => (s.1, r)) = [] := by
          rw [List.flatMap_eq_nil_iff]
          intro s hs
          rw [hz s hs]; rfl
        rw [this]
      · intro s hs
        rw [hz s hs]; rfl
    · rw [h2]
      subst h1
      obtain ⟨C, y, D, rfl, hA, ⟨hk, hr⟩, hB⟩ := forall₂_split h
      obtain ⟨k, recs⟩ := y
      rcases recs with _ | ⟨r, rs⟩
      · exfalso
        rw [show next s.2 = MAX_TIME from hr] at h3
        rw [lt_iff] at h3
        simp at h3
      obtain ⟨e1, hi, e2, hr'⟩ := hr
      simp only at hk e1 e2 hr'
      have hne : next s.2 ≠ MAX_TIME := e1 ▸ inTime_ne hi
      simp only [hm, Nat.zero_add, if_neg hne, Bool.false_eq_true, if_false,
        List.getElem?_append_right (Nat.le_refl _), Nat.sub_self, List.getElem?_cons_zero,
        setAt_append]
      have nd' : ((C ++ (k, rs) :: D).map Prod.fst).Nodup := by simpa using nd
      obtain ⟨out, g1, g2, g3⟩ := ih (maint m (next s.2)).1 (A ++ (s.1, (get s.2).2) :: B)
        (C ++ (k, rs) :: D) nd' (forall₂_append hA (.cons ⟨hk, hr'⟩ hB))
        (by simp only [total_append, total_cons, List.length_cons] at hf ⊢; omega)
      rw [g1]
      have er : (s.1, next s.2, (get s.2).1) = (k, r) := by rw [hk, e1, e2]
      refine ⟨(k, r) :: out, by rw [← er], merge_step nd g2, ?_⟩
      intro hs
      have hs' : ∀ s ∈ C ++ (k, rs) :: D, s.2.Pairwise fun a b => NotLater a.1 b.1 := by
        intro s' h'
        rcases List.mem_append.1 h' with hc | hd
        · exact hs s' (by simp [hc])
        · rcases List.mem_cons.1 hd with rfl | hd
          · exact (List.pairwise_cons.1 (hs (k, r :: rs) (by simp))).2
          · exact hs s' (by simp [hd])
      refine List.Pairwise.cons ?_ (g3 hs')
      intro o ho
      obtain ⟨s', hs'm, r', hr'm, rfl⟩ := mem_of_merge g2 ho
      show NotLater r.1 r'.1
      -- `s'` also occurs among the sources before the step, with `r` possibly in front
      have key : ∀ (s0 : Int × List (Stamp × P)), s0 ∈ C ++ (k, r :: rs) :: D → r' ∈ s0.2 →
          NotLater r.1 r'.1 := by
        intro s0 hs0 hr0
        obtain ⟨x, hx, hxk, hxr⟩ := forall₂_mem h hs0
        have hle := notLater_of_not_lt (h4 x hx)
        rcases hs02 : s0.2 with _ | ⟨q, qs⟩
        · rw [hs02] at hr0; simp at hr0
        · rw [hs02] at hr0 hxr
          obtain ⟨e3, _⟩ := hxr
          have h5 : NotLater r.1 q.1 := by
            have := hle
            simp only [e1, e3] at this
            exact this
          have hp := hs s0 hs0
          rw [hs02] at hp
          rcases List.mem_cons.1 hr0 with rfl | hr0
          · exact h5
          · exact notLater_trans h5 ((List.pairwise_cons.1 hp).1 r' hr0)
      rcases List.mem_append.1 hs'm with hc | hd
      · exact key s' (by simp [hc]) hr'm
      · rcases List.mem_cons.1 hd with rfl | hd
        · exact key (k, r :: rs) (by simp) (by simp at hr'm ⊢; right; exact hr'm)
        · exact key s' (by simp [hd]) hr'm

/-- With maintenance callbacks that may stop the replay, a prefix is delivered. -/
theorem readLoop_prefix {M' : Type} (maint : M → Stamp → M × Bool) (maint' : M' → Stamp → M' × Bool)
    (hm : ∀ m t, (maint m t).2 = false) (fuel : Nat) (m : M) (m' : M') (ss : List (Int × S))
    (out : List (Int × Stamp × P)) (h : readLoop next get maint fuel m ss = some out) :
    ∃ out', readLoop next get maint' fuel m' ss = some out' ∧ out' <+: out := by
  induction fuel generalizing m m' ss out with
  | zero => simp [readLoop] at h
  | succ fuel ih =>
    rw [readLoop] at h ⊢
    rcases hl : lowest (fun s : Int × S => next s.2) ss 0 (MAX_TIME, none) with ⟨t, _ | i⟩
    · rw [hl] at h
      simp only [Option.some.injEq] at h ⊢
      exact ⟨[], rfl, List.nil_prefix⟩
    · rw [hl] at h
      simp only at h ⊢
      by_cases ht : t = MAX_TIME
      · rw [if_pos ht]; exact ⟨[], rfl, List.nil_prefix⟩
      · rw [if_neg ht] at h ⊢
        simp only [hm, Bool.false_eq_true, if_false] at h
        by_cases he : (maint' m' t).2 = true
        · rw [if_pos he]; exact ⟨[], rfl, List.nil_prefix⟩
        · rw [if_neg he]
          rcases hi : ss[i]? with _ | s
          · rw [hi] at h; simp at h
          · rw [hi] at h
            simp only at h ⊢
            rcases hr : readLoop next get maint fuel (maint m t).1
              (setAt (s.1, (get s.2).2) i ss) with _ | o
            · rw [hr] at h; simp at h
            · rw [hr] at h
              simp only [Option.some.injEq] at h
              obtain ⟨o', h1, h2⟩ := ih _ (maint' m' t).1 _ _ hr
              rw [h1, ← h]
              exact ⟨_, rfl, (List.prefix_cons_inj _).2 h2⟩
end

end Verif.Log
