import Verif.Model.Copies
import Verif.Spec.QuatMem
import Verif.Props.CircularBuffer
import Verif.Props.QuatMem

/-!
# C131: copies of ring buffers and error states
-/

namespace Verif.Props.Copies

open Verif.Copies Verif.CB Verif.QuatMem Verif.Props.CircularBuffer Verif.Props.QuatMem

variable {α : Type}

/-! ### Ring buffers -/

/-- The same up to the count of faults. -/
def Same (r r' : CB.Ring α) : Prop := r.mem = r'.mem ∧ r.live = r'.live ∧ r.head = r'.head ∧ r.tail = r'.tail

theorem same_eq {r r' : CB.Ring α} (h : Same r r') : r = { r' with faults := r.faults } := by
  obtain ⟨h1, h2, h3, h4⟩ := h
  cases r
  simp_all

theorem same_popFront (N : Nat) {r r' : CB.Ring α} (h : Same r r') : Same (popFront N r) (popFront N r') := by
  rw [same_eq h]
  unfold CB.popFront destroy
  simp only
  split <;> exact ⟨rfl, rfl, rfl, rfl⟩

theorem same_popBack (N : Nat) {r r' : CB.Ring α} (h : Same r r') : Same (popBack N r) (popBack N r') := by
  rw [same_eq h]
  unfold CB.popBack destroy
  simp only
  split <;> exact ⟨rfl, rfl, rfl, rfl⟩

theorem same_clear (N : Nat) : ∀ (k : Nat) {r r' : CB.Ring α}, Same r r' → Same (clearLoop N k r) (clearLoop N k r')
  | 0, _, _, h => h
  | k + 1, r, r', h => by
    have he : empty r = empty r' := by unfold empty; rw [h.2.2.1, h.2.2.2]
    unfold clearLoop
    rw [he]
    split
    · exact h
    · exact same_clear N k (same_popFront N h)

theorem same_step (N : Nat) {r r' : CB.Ring α} (h : Same r r') (op : Op α) : Same (step N r op) (step N r' op) := by
  have hf : full N r = full N r' := by unfold full; rw [h.2.2.1, h.2.2.2]
  have key : ∀ (p : CB.Ring α → CB.Ring α), (∀ {a b}, Same a b → Same (p a) (p b)) → ∀ (b : Bool),
      Same (if b then p r else r) (if b then p r' else r') := by
    intro p hp b
    cases b
    · exact h
    · exact hp h
  cases op with
  | popFront => exact same_popFront N h
  | popBack => exact same_popBack N h
  | clear => exact same_clear N N h
  | emplaceBack v =>
    obtain ⟨h1, h2, h3, h4⟩ := key (popFront N) (same_popFront N) (full N r')
    simp only [step, emplaceBack, construct, hf]
    refine ⟨?_, ?_, ?_, ?_⟩ <;> simp only [h1, h2, h3, h4]
  | pushBack v =>
    obtain ⟨h1, h2, h3, h4⟩ := key (popFront N) (same_popFront N) (full N r')
    simp only [step, pushBack, CB.assign, hf]
    refine ⟨?_, ?_, ?_, ?_⟩ <;> simp only [h1, h2, h3, h4]
  | emplaceFront v =>
    obtain ⟨h1, h2, h3, h4⟩ := key (popBack N) (same_popBack N) (full N r')
    simp only [step, emplaceFront, construct, hf]
    refine ⟨?_, ?_, ?_, ?_⟩ <;> simp only [h1, h2, h3, h4]
  | pushFront v =>
    obtain ⟨h1, h2, h3, h4⟩ := key (popBack N) (same_popBack N) (full N r')
    simp only [step, pushFront, CB.assign, hf]
    refine ⟨?_, ?_, ?_, ?_⟩ <;> simp only [h1, h2, h3, h4]

/-- The calls of a list that go to buffer `j`. -/
def opsOf (j : Nat) (l : List (Nat × Op α)) : List (Op α) := (l.filter fun p => p.1 = j).map Prod.snd

/-- Every buffer works in its own storage. -/
def Own (w : World α) : Prop := ∀ i, (w.obj i).buf = i ∧ (w.obj i).owner = i

theorem own_call (N : Nat) (w : World α) (h : Own w) (i : Nat) (op : Op α) : Own (call N w i op) := by
  intro k
  unfold call put
  simp only
  split
  · rename_i hk; subst hk; exact h k
  · exact h k

theorem view_put (w : World α) (i : Nat) (r : CB.Ring α) : view (put w i r) i = r := by
  unfold view put
  simp

theorem view_call (N : Nat) (w : World α) (h : Own w) (i j : Nat) (op : Op α) :
    Same (view (call N w i op) j) (if i = j then step N (view w j) op else view w j) := by
  by_cases hij : i = j
  · subst hij
    rw [if_pos rfl]
    unfold call
    rw [view_put]
    exact ⟨rfl, rfl, rfl, rfl⟩
  · rw [if_neg hij]
    have e : (w.obj j).buf ≠ (w.obj i).buf := by rw [(h j).1, (h i).1]; exact fun e => hij e.symm
    have e' : j ≠ i := fun e => hij e.symm
    unfold call view put
    refine ⟨?_, ?_, ?_, ?_⟩ <;> simp [e, e']

/-- **C131, buffers that are not copied.**  Whatever is called on several buffers in whatever order: each of them holds what its own
calls alone make of it. -/
theorem C131_own (N : Nat) (l : List (Nat × Op α)) (j : Nat) :
    Same (view (calls N fresh l) j) (run N (opsOf j l)) ∧
    elements N (calls N fresh l) j = iterate N (run N (opsOf j l)) N (run N (opsOf j l)).head ∧
    sizeAt N (calls N fresh l) j = size N (run N (opsOf j l)) := by
  have main : ∀ (l : List (Nat × Op α)) (w : World α) (r : CB.Ring α), Own w → Same (view w j) r →
      Own (calls N w l) ∧ Same (view (calls N w l) j) ((opsOf j l).foldl (step N) r) := by
    intro l
    induction l with
    | nil => intro w r h1 h2; exact ⟨h1, h2⟩
    | cons p l ih =>
      intro w r h1 h2
      have hs := view_call N w h1 p.1 j p.2
      refine ⟨(ih _ _ (own_call N w h1 p.1 p.2) hs).1, ?_⟩
      by_cases hp : p.1 = j
      · rw [if_pos hp] at hs
        have e : opsOf j (p :: l) = p.2 :: opsOf j l := by simp [opsOf, hp]
        rw [e]
        have h3 := same_step N h2 p.2
        exact (ih _ (step N r p.2) (own_call N w h1 p.1 p.2)
          ⟨hs.1.trans h3.1, hs.2.1.trans h3.2.1, hs.2.2.1.trans h3.2.2.1, hs.2.2.2.trans h3.2.2.2⟩).2
      · rw [if_neg hp] at hs
        have e : opsOf j (p :: l) = opsOf j l := by simp [opsOf, hp]
        rw [e]
        exact (ih _ r (own_call N w h1 p.1 p.2)
          ⟨hs.1.trans h2.1, hs.2.1.trans h2.2.1, hs.2.2.1.trans h2.2.2.1, hs.2.2.2.trans h2.2.2.2⟩).2
  obtain ⟨ho, hs⟩ := main l fresh init (fun i => ⟨rfl, rfl⟩) ⟨rfl, rfl, rfl, rfl⟩
  have hs : Same (view (calls N fresh l) j) (run N (opsOf j l)) := hs
  have hh : ((calls N fresh l).obj j).head = (run N (opsOf j l)).head := hs.2.2.1
  have ht : ((calls N fresh l).obj j).tail = (run N (opsOf j l)).tail := hs.2.2.2
  refine ⟨hs, ?_, ?_⟩
  · unfold elements
    rw [hh]
    have : ∀ (k it : Nat), iterate N (view (calls N fresh l) j) k it = iterate N (run N (opsOf j l)) k it := by
      intro k
      induction k with
      | zero => intro it; rfl
      | succ k ih =>
        intro it
        unfold iterate
        rw [hs.1, hs.2.2.2, ih]
    exact this _ _
  · unfold sizeAt size idxAt idx
    rw [(ho j).2, hh, ht]

/-- The claim: a copy is a buffer of its own with the same elements; whatever is called on the two afterwards, each holds what its
own calls make of the elements, and both can be destroyed. -/
def C131_statement : Prop :=
  ∀ (N : Nat), 2 ≤ N → N < 2 ^ 31 → ∀ (ops : List (Op Nat)), Disciplined (N - 1) [] ops → ∀ (l : List (Nat × Op Nat)),
    (∀ p ∈ l, p.1 = 0 ∨ p.1 = 1) →
    let w := calls N (Copies.copy (calls N fresh (ops.map fun o => (0, o))) 1 0) l
    (∀ j ≤ 1, elements N w j = iterate N (run N (ops ++ opsOf j l)) N (run N (ops ++ opsOf j l)).head ∧
      sizeAt N w j = size N (run N (ops ++ opsOf j l))) ∧
    (l = [] → (destruct N (destruct N w 1) 0).faults = 0)

/-- **C131 violated.**  A copy `1` of `0` whose storage is elsewhere works in the storage of `0`: no call on the copy ever touches
its own storage, and what it stores is stored in the original. -/
theorem C131_storage_violated (N : Nat) (w : World α) (h : (w.obj 0).buf = 0) (ops : List (Op α)) :
    let w' := calls N (Copies.copy w 1 0) (ops.map fun o => (1, o))
    w'.mem 1 = w.mem 0 ∧ w'.live 1 = w.live 1 ∧ w'.obj 0 = w.obj 0 ∧
      ⟨w'.mem 0, w'.live 0, (w'.obj 1).head, (w'.obj 1).tail, w'.faults⟩ = ops.foldl (step N) (view w 0) := by
  have main : ∀ (ops : List (Op α)) (v : World α), (v.obj 1).buf = 0 →
      let v' := calls N v (ops.map fun o => (1, o))
      v'.mem 1 = v.mem 1 ∧ v'.live 1 = v.live 1 ∧ v'.obj 0 = v.obj 0 ∧ (v'.obj 1).buf = 0 ∧
        view v' 1 = ops.foldl (step N) (view v 1) := by
    intro ops
    induction ops with
    | nil => intro v hv; exact ⟨rfl, rfl, rfl, hv, rfl⟩
    | cons o ops ih =>
      intro v hv
      have hb : ((call N v 1 o).obj 1).buf = 0 := by simp [call, put, hv]
      obtain ⟨a1, a2, a3, a4, a5⟩ := ih (call N v 1 o) hb
      refine ⟨a1.trans ?_, a2.trans ?_, a3.trans ?_, a4, ?_⟩
      · simp [call, put, hv]
      · simp [call, put, hv]
      · simp [call, put]
      · refine a5.trans ?_
        unfold call
        rw [view_put]
        rfl
  have hc : ((Copies.copy w 1 0).obj 1).buf = 0 := by simp [Copies.copy, h]
  obtain ⟨a1, a2, a3, a4, a5⟩ := main ops (Copies.copy w 1 0) hc
  refine ⟨a1.trans (by simp [Copies.copy]), a2.trans (by simp [Copies.copy]), a3.trans (by simp [Copies.copy]), ?_⟩
  have e : view (Copies.copy w 1 0) 1 = view w 0 := by
    unfold view Copies.copy
    simp [h]
  rw [← e, ← a5]
  unfold view
  rw [a4]

/-- So the calls of one show in the other: the original pushes 8, the copy removes its first element and pushes 9. The copy shows 8
where it pushed 9 or the original 9 where it pushed 8, whichever came first. -/
theorem C131_shared_violated :
    let w : World Nat := calls 4 fresh [(0, .emplaceBack 1), (0, .emplaceBack 2)]
    let a := calls 4 (Copies.copy w 1 0) [(1, .popFront), (1, .emplaceBack 9), (0, .emplaceBack 8)]
    let b := calls 4 (Copies.copy w 1 0) [(0, .emplaceBack 8), (1, .popFront), (1, .emplaceBack 9)]
    elements 4 a 1 = [some 2, some 8] ∧ elements 4 b 0 = [some 1, some 2, some 9] ∧ a.faults = 1 ∧ b.faults = 1 := by decide

/-- The number of elements of the copy counts from the first element of the original: after two elements were removed from the
original, the copy, which has three, says 2^64 - 1. -/
theorem C131_size_violated :
    let w : World Nat := calls 4 fresh [(0, .emplaceBack 1), (0, .emplaceBack 2), (0, .emplaceBack 3)]
    let a := calls 4 (Copies.copy w 1 0) [(0, .popFront), (0, .popFront)]
    (elements 4 a 1).length = 3 ∧ sizeAt 4 a 1 = 2 ^ 64 - 1 := by decide

theorem popFront_dead (N : Nat) (r : CB.Ring α) (h : ∀ p, r.live p = false) :
    (∀ p, (popFront N r).live p = false) ∧ (popFront N r).faults = r.faults + 1 := by
  unfold CB.popFront destroy
  simp [h]

theorem clear_dead (N : Nat) : ∀ (k : Nat) (r : CB.Ring α) (l : List α), Rep N r l → l.length ≤ k →
    (∀ p, r.live p = false) → (clearLoop N k r).faults = r.faults + l.length
  | 0, r, l, h, hk, hd => by
    have : l.length = 0 := by omega
    rw [this]
    rfl
  | k + 1, r, l, h, hk, hd => by
    unfold clearLoop
    by_cases he : l = []
    · rw [if_pos (h.empty_iff.2 he), he]
      rfl
    · rw [if_neg (fun hh => he (h.empty_iff.1 hh))]
      obtain ⟨d1, d2⟩ := popFront_dead N r hd
      have hp := h.popFront he
      have hl : 0 < l.length := List.length_pos_iff.2 he
      rw [clear_dead N k _ _ hp (by simp; omega) d1, d2]
      simp
      omega

/-- **C131 violated, destructors.**  Of every buffer filled without any fault: destroying a copy destroys the elements of the original,
and destroying the original destroys each of them a second time. -/
theorem C131_destroy_violated (N : Nat) (hN : 2 ≤ N) (hb : N < 2 ^ 31) (ops : List (Op α)) (d : Disciplined (N - 1) [] ops) :
    let w : World α := calls N fresh (ops.map fun o => (0, o))
    let c := Copies.copy w 1 0
    (∀ p, (destruct N c 1).live 0 p = false) ∧ elements N (destruct N c 1) 0 = elements N w 0 ∧
      (destruct N (destruct N c 1) 0).faults = (DequeSpec.run (N - 1) ops).length := by
  have hw : ∀ (ops : List (Op α)) (v : World α), (v.obj 0).buf = 0 →
      ((calls N v (ops.map fun o => (0, o))).obj 0).buf = 0 ∧
      view (calls N v (ops.map fun o => (0, o))) 0 = ops.foldl (step N) (view v 0) := by
    intro ops
    induction ops with
    | nil => intro v hv; exact ⟨hv, rfl⟩
    | cons o ops ih =>
      intro v hv
      have hb : ((call N v 0 o).obj 0).buf = 0 := by simp [call, put, hv]
      obtain ⟨a4, a5⟩ := ih (call N v 0 o) hb
      refine ⟨a4, a5.trans ?_⟩
      unfold call
      rw [view_put]
      rfl
  obtain ⟨w1, w2⟩ := hw ops fresh rfl
  intro w c
  have w2 : view w 0 = run N ops := w2
  have hcl := clean_run N ops _ _ (clean_init hN hb) d
  have hcl : Clean N (run N ops) (DequeSpec.run (N - 1) ops) := hcl
  have hlen := hcl.rep.len
  have hcc := hcl.clearLoop N (by omega)
  have hc1 : (c.obj 1).buf = 0 := by simp [c, Copies.copy]; exact w1
  have hv1 : view c 1 = run N ops := by
    rw [← w2]
    unfold view
    simp only [c, Copies.copy]
    simp [w, w1]
  have hlive : ∀ p, (destruct N c 1).live 0 p = false := by
    intro p
    have : (destruct N c 1).live 0 = (clear N (run N ops)).live := by
      unfold destruct call put
      simp only [hc1, if_true, hv1]
      rfl
    rw [this]
    have := hcc.live p
    rw [← Bool.not_eq_true]
    intro hh
    obtain ⟨i, hi, -⟩ := this.1 hh
    simp at hi
  have hmem : ∀ (k : Nat) (r : CB.Ring α), (clearLoop N k r).mem = r.mem := by
    intro k
    induction k with
    | zero => intro r; rfl
    | succ k ih =>
      intro r
      unfold clearLoop
      split
      · rfl
      · rw [ih]
        unfold CB.popFront
        simp only
        exact destroy_mem r _
  have ho : (destruct N c 1).obj 0 = w.obj 0 := by simp [destruct, call, put, c, Copies.copy]
  have hm0 : (destruct N c 1).mem 0 = (run N ops).mem := by
    unfold destruct call put
    simp only [hc1, if_true, hv1]
    exact hmem N _
  have hvd : view (destruct N c 1) 0 = ⟨(run N ops).mem, (destruct N c 1).live 0, (run N ops).head, (run N ops).tail, 0⟩ := by
    have h3 : (w.obj 0).head = (run N ops).head := by rw [← w2]; rfl
    have h4 : (w.obj 0).tail = (run N ops).tail := by rw [← w2]; rfl
    have h5 : (destruct N c 1).faults = 0 := by
      have : (destruct N c 1).faults = (clear N (run N ops)).faults := by
        unfold destruct call put
        simp only [hv1]
        rfl
      rw [this]
      exact hcc.noFault
    have w1 : (w.obj 0).buf = 0 := w1
    unfold view
    rw [ho, w1, hm0, h3, h4, h5]
  have hrep : Rep N (view (destruct N c 1) 0) (DequeSpec.run (N - 1) ops) := by
    rw [hvd]
    exact ⟨hcl.rep.hN, hcl.rep.big, hcl.rep.hhead, hcl.rep.htail, hcl.rep.len, hcl.rep.pos, hcl.rep.mem⟩
  refine ⟨hlive, ?_, ?_⟩
  · have e1 := hrep.iterate
    have e2 := hcl.rep.iterate
    have h3 : (w.obj 0).head = (run N ops).head := by rw [← w2]; rfl
    unfold elements
    rw [w2, ho, h3, e2]
    rw [hvd] at e1 ⊢
    exact e1
  · have : (destruct N (destruct N c 1) 0).faults = (clear N (view (destruct N c 1) 0)).faults := rfl
    rw [this]
    unfold clear
    rw [clear_dead N N _ _ hrep (by omega) (by rw [hvd]; exact hlive), hvd]
    simp

/-- Such a buffer: three elements, so three double destructions. -/
example : Disciplined (5 - 1) ([] : List Nat) [.emplaceBack 1, .emplaceBack 2, .emplaceFront 0] := by
  simp [Disciplined, DequeSpec.step, DequeSpec.pushBack]

/-- **C131, part.**  While only one of the two is used and the original is not destroyed, a copy holds what its calls make of the
elements of the original. Missing: any use of both. -/
theorem C131_copy_partial (N : Nat) (w : World α) (h : (w.obj 0).buf = 0) (ho : (w.obj 0).owner = 0) (ops : List (Op α)) :
    let w' := calls N (Copies.copy w 1 0) (ops.map fun o => (1, o))
    elements N (Copies.copy w 1 0) 1 = elements N w 0 ∧
      elements N w' 1 = iterate N (ops.foldl (step N) (view w 0)) N (ops.foldl (step N) (view w 0)).head ∧
      sizeAt N (Copies.copy w 1 0) 1 = sizeAt N w 0 := by
  intro w'
  obtain ⟨-, -, -, h4⟩ := C131_storage_violated N w h ops
  have e : view (Copies.copy w 1 0) 1 = view w 0 := by
    unfold view Copies.copy
    simp [h]
  have hb : ∀ (ops : List (Op α)) (v : World α), (v.obj 1).buf = 0 →
      ((calls N v (ops.map fun o => (1, o))).obj 1).buf = 0 := by
    intro ops
    induction ops with
    | nil => intro v hv; exact hv
    | cons o ops ih => intro v hv; exact ih (call N v 1 o) (by simp [call, put, hv])
  have hb := hb ops (Copies.copy w 1 0) (by simp [Copies.copy, h])
  have hv : view w' 1 = ops.foldl (step N) (view w 0) := by
    rw [← h4]
    unfold view
    rw [hb]
  refine ⟨?_, ?_, ?_⟩
  · unfold elements
    rw [e]
    simp [Copies.copy]
  · unfold elements
    rw [← hv]
    rfl
  · unfold sizeAt idxAt Copies.copy
    simp [ho]

theorem C131_statement_false : ¬ C131_statement := by
  intro h
  have := (h 4 (by omega) (by omega) [.emplaceBack 1, .emplaceBack 2] (by simp [Disciplined])
    [(1, .popFront), (1, .emplaceBack 9), (0, .emplaceBack 8)] (by simp)).1 1 (by omega)
  revert this
  decide

/-! ### Error states -/

theorem rd_same {m m' : Mem} : ∀ (n a : Nat), SameAt m m' a n → rd m' a n = rd m a n
  | 0, _, _ => rfl
  | n + 1, a, h => by
    unfold rd
    rw [h a (by omega) (by omega), rd_same n (a + 1) fun i h1 h2 => h i (by omega) (by omega)]

theorem rd_split (m : Mem) : ∀ (n k a : Nat), rd m a (n + k) = (rd m a n).bind fun x => (rd m (a + n) k).map fun y => x ++ y
  | 0, k, a => by simp [rd]
  | n + 1, k, a => by
    rw [show n + 1 + k = (n + k) + 1 by omega, rd, rd, rd_split m n k (a + 1), show a + 1 + n = a + (n + 1) by omega]
    cases m a <;> simp
    cases rd m (a + 1) n <;> simp
    cases rd m (a + (n + 1)) k <;> simp

theorem wrs_spec : ∀ (v : List ℝ) (m : Mem) (a : Nat), Alive m a v.length →
    ∃ m', wrs m a v = some m' ∧ Only m m' a v.length ∧ rd m' a v.length = some v ∧ (∀ i, (m' i).isSome = (m i).isSome)
  | [], m, a, _ => ⟨m, rfl, fun _ _ => rfl, rfl, fun _ => rfl⟩
  | x :: v, m, a, h => by
    obtain ⟨y, hy⟩ := h a (by omega) (by simp)
    have hal : Alive (Function.update m a (some x)) (a + 1) v.length := by
      intro i h1 h2
      rw [upd_ne (by omega)]
      exact h i (by omega) (by simp; omega)
    obtain ⟨m', h1, h2, h3, h4⟩ := wrs_spec v _ (a + 1) hal
    refine ⟨m', ?_, ?_, ?_, ?_⟩
    · rw [wrs, wr_some hy, Option.bind_some, h1]
    · intro i hi
      simp only [List.length_cons] at hi
      rw [h2 i (by omega), upd_ne (by omega)]
    · rw [List.length_cons, rd, h2 a (by omega), Function.update_self, h3]
      rfl
    · intro i
      rw [h4 i]
      by_cases hi : i = a
      · subst hi; rw [Function.update_self, hy]; rfl
      · rw [upd_ne hi]

theorem mv_spec : ∀ (n : Nat) (m : Mem) (b a : Nat) (v : List ℝ), rd m a n = some v → Alive m b n →
    (b + n ≤ a ∨ a + n ≤ b ∨ b = a) →
    ∃ m', mv m b a n = some m' ∧ Only m m' b n ∧ rd m' b n = some v ∧ rd m' a n = some v ∧ ∀ i, (m' i).isSome = (m i).isSome
  | 0, m, b, a, v, h, _, _ => ⟨m, rfl, fun _ _ => rfl, h, h, fun _ => rfl⟩
  | n + 1, m, b, a, v, h, hb, hd => by
    rw [rd] at h
    obtain ⟨x, hx, h⟩ := Option.bind_eq_some_iff.1 h
    obtain ⟨l, hl, rfl⟩ := Option.map_eq_some_iff.1 h
    obtain ⟨y, hy⟩ := hb b (by omega) (by omega)
    have hr : rd (Function.update m b (some x)) (a + 1) n = some l := by
      rw [← hl]
      exact rd_same n (a + 1) fun i h1 h2 => upd_ne (by omega)
    have hal : Alive (Function.update m b (some x)) (b + 1) n := by
      intro i h1 h2
      rw [upd_ne (by omega)]
      exact hb i (by omega) (by omega)
    obtain ⟨m', h1, h2, h3, h4, h5⟩ := mv_spec n _ (b + 1) (a + 1) l hr hal (by omega)
    refine ⟨m', ?_, ?_, ?_, ?_, ?_⟩
    · rw [mv, hx, Option.bind_some, wr_some hy, Option.bind_some, h1]
    · intro i hi
      rw [h2 i (by omega), upd_ne (by omega)]
    · rw [rd, h2 b (by omega), Function.update_self, h3]
      rfl
    · have hxa : m' a = some x := by
        rw [h2 a (by omega)]
        by_cases hab : a = b
        · rw [hab, Function.update_self]
        · rw [upd_ne hab, hx]
      rw [rd, hxa, h4]
      rfl
    · intro i
      rw [h5 i]
      by_cases hi : i = b
      · subst hi; rw [Function.update_self, hy]; rfl
      · rw [upd_ne hi]

/-- The maps refer to the numbers of the object itself. -/
def Proper (o : Err) : Prop := o = errNew o.data

theorem parts_eq (m : Mem) (o : Err) (h : Proper o) : errParts m o = errVec m o := by
  unfold errParts errVec
  rw [h]
  simp only [errNew]
  rw [show (9 : Nat) = 3 + (3 + 3) by rfl, rd_split, rd_split, show o.data + 3 + 3 = o.data + 6 by rfl]
  cases rd m o.data 3 <;> simp
  cases rd m (o.data + 3) 3 <;> simp
  cases rd m (o.data + 6) 3 <;> simp

/-- **C131, error states.**  Made from an expression, an error state has its values, in its maps as well, writes to nothing else and
depends on nothing else afterwards. -/
theorem C131_error (m : Mem) (b : Nat) (v : List ℝ) (hv : v.length = 9) (hb : Alive m b 9) :
    ∃ m' o, errOf m b v = some (m', o) ∧ Only m m' b 9 ∧ errVec m' o = some v ∧ errParts m' o = some v ∧
      ∀ m'', SameAt m' m'' b 9 → errVec m'' o = some v ∧ errParts m'' o = some v := by
  obtain ⟨m', h1, h2, h3, h4⟩ := wrs_spec v m b (by rw [hv]; exact hb)
  rw [hv] at h2 h3
  have hp : Proper (errNew b) := rfl
  refine ⟨m', errNew b, by rw [errOf, h1]; rfl, h2, h3, by rw [parts_eq _ _ hp]; exact h3, ?_⟩
  intro m'' hs
  have : errVec m'' (errNew b) = some v := by
    unfold errVec
    rw [← h3]
    exact rd_same 9 b hs
  exact ⟨this, by rw [parts_eq _ _ hp]; exact this⟩

/-- **C131, assignment.**  Between error states that were not made by copying, assignment gives the values and changes nothing else. -/
theorem C131_assign_partial (m : Mem) (p q : Err) (hp : Proper p) (hq : Proper q) (v : List ℝ) (hv : errVec m q = some v)
    (ha : Alive m p.data 9) (hd : Apart p.data q.data 9 ∨ p.data = q.data) :
    ∃ m', errAssign m p q = some m' ∧ Only m m' p.data 9 ∧ errParts m' p = some v ∧ errVec m' p = some v ∧
      errParts m' q = some v := by
  obtain ⟨m1, a1, a2, a3, a4, a5⟩ := mv_spec 9 m p.data q.data v hv ha (by unfold Apart at hd; omega)
  have alive1 : Alive m1 p.data 9 := by
    intro i h1 h2
    obtain ⟨x, hx⟩ := ha i h1 h2
    have := a5 i
    rw [hx] at this
    exact Option.isSome_iff_exists.1 this
  -- a second copy of a part changes nothing
  have again : ∀ (k n : Nat), k + n ≤ 9 → mv m1 (p.data + k) (q.data + k) n = some m1 := by
    have cell : ∀ i, i < 9 → m1 (p.data + i) = m1 (q.data + i) := by
      have : ∀ (n a b : Nat), rd m1 a n = rd m1 b n → (rd m1 a n).isSome → ∀ i < n, m1 (a + i) = m1 (b + i) := by
        intro n
        induction n with
        | zero => intro a b _ _ i hi; omega
        | succ n ih =>
          intro a b h hs i hi
          rw [rd] at h hs
          rw [rd] at h
          cases ha : m1 a with
          | none => rw [ha] at hs; cases hs
          | some x =>
            rw [ha] at h hs
            cases hb : m1 b with
            | none =>
              rw [hb] at h
              simp only [Option.bind_some, Option.bind_none] at h hs
              rw [h] at hs; cases hs
            | some y =>
              rw [hb] at h
              simp only [Option.bind_some] at h hs
              cases hra : rd m1 (a + 1) n with
              | none => rw [hra] at hs; cases hs
              | some l =>
                cases hrb : rd m1 (b + 1) n with
                | none => rw [hra, hrb] at h; cases h
                | some l' =>
                  rw [hra, hrb] at h
                  simp only [Option.map_some, Option.some.injEq, List.cons.injEq] at h
                  cases i with
                  | zero => simp [ha, hb, h.1]
                  | succ i =>
                    have := ih (a + 1) (b + 1) (by rw [hra, hrb, h.2]) (by rw [hra]; rfl) i (by omega)
                    rw [show a + (i + 1) = a + 1 + i by omega, show b + (i + 1) = b + 1 + i by omega]
                    exact this
      exact this 9 p.data q.data (by rw [a3, a4]) (by rw [a3]; rfl)
    intro k n
    induction n generalizing k with
    | zero => intro _; rfl
    | succ n ih =>
      intro hk
      obtain ⟨x, hx⟩ := alive1 (p.data + k) (by omega) (by omega)
      rw [mv, ← cell k (by omega), hx, Option.bind_some, wr_some hx, Option.bind_some]
      have e : Function.update m1 (p.data + k) (some x) = m1 := by
        rw [← hx]
        exact Function.update_eq_self _ _
      rw [e]
      exact ih (k + 1) (by omega)
  have hpa : p.alpha = p.data ∧ p.beta = p.data + 3 ∧ p.gamma = p.data + 6 := by
    rw [hp]; exact ⟨rfl, rfl, rfl⟩
  have hqa : q.alpha = q.data ∧ q.beta = q.data + 3 ∧ q.gamma = q.data + 6 := by
    rw [hq]; exact ⟨rfl, rfl, rfl⟩
  refine ⟨m1, ?_, a2, by rw [parts_eq _ _ hp]; exact a3, a3, by rw [parts_eq _ _ hq]; exact a4⟩
  unfold errAssign
  rw [a1, Option.bind_some, hpa.1, hpa.2.1, hpa.2.2, hqa.1, hqa.2.1, hqa.2.2]
  have e0 := again 0 3 (by omega)
  simp only [Nat.add_zero] at e0
  rw [e0, Option.bind_some, again 3 3 (by omega), Option.bind_some, again 6 3 (by omega)]

/-- **C131 violated, error states.**  The copy of an error state (as in test_imu_state.cxx 47) has the numbers but its maps refer to
the original: an assignment to the original changes what is added with the copy, and when the original dies the copy dangles. -/
theorem C131_error_violated (m : Mem) (b : Nat) (o : Err) (ho : Proper o) (v w : List ℝ) (hw : w.length = 9)
    (hv : errVec m o = some v) (hb : Alive m b 9) (hd : Apart b o.data 9) :
    ∃ m' c, errCopy m b o = some (m', c) ∧ errVec m' c = some v ∧ errParts m' c = some v ∧
      (∃ m'', errSet m' o w = some m'' ∧ errVec m'' c = some v ∧ errParts m'' c = some w) ∧
      (∀ m'', m'' o.data = none → errParts m'' c = none) := by
  obtain ⟨m1, a1, a2, a3, a4, a5⟩ := mv_spec 9 m b o.data v hv hb (by unfold Apart at hd; omega)
  have hoa : o.alpha = o.data ∧ o.beta = o.data + 3 ∧ o.gamma = o.data + 6 := by
    rw [ho]; exact ⟨rfl, rfl, rfl⟩
  have hparts : ∀ m, errParts m { o with data := b } = errVec m o := by
    intro m
    rw [← parts_eq m o ho]
    rfl
  have alive : ∀ (n : Nat) (a : Nat) (l : List ℝ), rd m1 a n = some l → Alive m1 a n := by
    intro n
    induction n with
    | zero => intro a l _ i h1 h2; omega
    | succ n ih =>
      intro a l h i h1 h2
      rw [rd] at h
      obtain ⟨x, hx, h⟩ := Option.bind_eq_some_iff.1 h
      obtain ⟨l', hl, rfl⟩ := Option.map_eq_some_iff.1 h
      by_cases hi : i = a
      · exact ⟨x, by rw [hi, hx]⟩
      · exact ih (a + 1) l' hl i (by omega) (by omega)
  obtain ⟨m2, b1, b2, b3, b4⟩ := wrs_spec w m1 o.data (by rw [hw]; exact alive 9 _ _ a4)
  rw [hw] at b2 b3
  refine ⟨m1, { o with data := b }, by rw [errCopy, a1]; rfl, a3, by rw [hparts]; exact a4, ⟨m2, b1, ?_, ?_⟩, ?_⟩
  · unfold errVec
    simp only
    rw [← a3]
    exact rd_same 9 b fun i h1 h2 => b2 i (by unfold Apart at hd; omega)
  · rw [hparts]
    exact b3
  · intro m'' hn
    rw [hparts]
    unfold errVec
    rw [rd, hn]
    rfl

/-- **C131 violated, assignment to a copy.**  Assigning `q` to a copy of `o` overwrites `o`. -/
theorem C131_through_violated (m : Mem) (b : Nat) (o q : Err) (ho : Proper o) (hq : Proper q) (v : List ℝ) (hv : errVec m q = some v)
    (hb : Alive m b 9) (hoa : Alive m o.data 9) (d1 : Apart b q.data 9) (d2 : Apart o.data q.data 9) (d3 : Apart b o.data 9) :
    ∃ m', errAssign m { o with data := b } q = some m' ∧ errVec m' o = some v := by
  have hpa : o.alpha = o.data ∧ o.beta = o.data + 3 ∧ o.gamma = o.data + 6 := by
    rw [ho]; exact ⟨rfl, rfl, rfl⟩
  have hqa : q.alpha = q.data ∧ q.beta = q.data + 3 ∧ q.gamma = q.data + 6 := by
    rw [hq]; exact ⟨rfl, rfl, rfl⟩
  unfold Apart at *
  have step : ∀ (n : Nat) (m : Mem) (x y : Nat) (l : List ℝ), rd m y n = some l → Alive m x n → (x + n ≤ y ∨ y + n ≤ x) →
      ∃ m', mv m x y n = some m' ∧ Only m m' x n ∧ rd m' x n = some l ∧ ∀ i, (m' i).isSome = (m i).isSome := by
    intro n m x y l h1 h2 h3
    obtain ⟨m', c1, c2, c3, -, c5⟩ := mv_spec n m x y l h1 h2 (by omega)
    exact ⟨m', c1, c2, c3, c5⟩
  have keep : ∀ {m m' : Mem} {x n a k : Nat}, Alive m a k → (∀ i, (m' i).isSome = (m i).isSome) → Alive m' a k := by
    intro m m' x n a k h1 h2 i h3 h4
    obtain ⟨y, hy⟩ := h1 i h3 h4
    have := h2 i
    rw [hy] at this
    exact Option.isSome_iff_exists.1 this
  have sub : ∀ {m : Mem} {a k : Nat} (j n : Nat), Alive m a k → j + n ≤ k → Alive m (a + j) n := by
    intro m a k j n h1 h2 i h3 h4
    exact h1 i (by omega) (by omega)
  -- the parts of `q`
  have hs : ∃ x y z, rd m q.data 3 = some x ∧ rd m (q.data + 3) 3 = some y ∧ rd m (q.data + 6) 3 = some z ∧ v = x ++ (y ++ z) := by
    unfold errVec at hv
    rw [show (9 : Nat) = 3 + (3 + 3) by rfl, rd_split, rd_split, show q.data + 3 + 3 = q.data + 6 by rfl] at hv
    obtain ⟨x, hx, hv⟩ := Option.bind_eq_some_iff.1 hv
    obtain ⟨yz, hyz, rfl⟩ := Option.map_eq_some_iff.1 hv
    obtain ⟨y, hy, hyz⟩ := Option.bind_eq_some_iff.1 hyz
    obtain ⟨z, hz, rfl⟩ := Option.map_eq_some_iff.1 hyz
    exact ⟨x, y, z, hx, hy, hz, rfl⟩
  obtain ⟨x, y, z, hx, hy, hz, rfl⟩ := hs
  obtain ⟨m1, a1, a2, -, a4⟩ := step 9 m b q.data _ hv hb (by omega)
  obtain ⟨m2, b1, b2, b3, b4⟩ := step 3 m1 o.data q.data x
    (by rw [← hx]; exact rd_same 3 _ fun i h1 h2 => a2 i (by omega))
    (by have := sub 0 3 (keep (x := 0) (n := 0) hoa a4) (by omega); simpa using this) (by omega)
  obtain ⟨m3, c1, c2, c3, c4⟩ := step 3 m2 (o.data + 3) (q.data + 3) y
    (by rw [← hy]; exact rd_same 3 _ fun i h1 h2 => by rw [b2 i (by omega), a2 i (by omega)])
    (sub 3 3 (keep (x := 0) (n := 0) (keep (x := 0) (n := 0) hoa a4) b4) (by omega)) (by omega)
  obtain ⟨m4, e1, e2, e3, e4⟩ := step 3 m3 (o.data + 6) (q.data + 6) z
    (by rw [← hz]; exact rd_same 3 _ fun i h1 h2 => by rw [c2 i (by omega), b2 i (by omega), a2 i (by omega)])
    (sub 6 3 (keep (x := 0) (n := 0) (keep (x := 0) (n := 0) (keep (x := 0) (n := 0) hoa a4) b4) c4) (by omega)) (by omega)
  refine ⟨m4, ?_, ?_⟩
  · unfold errAssign
    simp only
    rw [a1, Option.bind_some, hpa.1, hpa.2.1, hpa.2.2, hqa.1, hqa.2.1, hqa.2.2, b1, Option.bind_some, c1, Option.bind_some, e1]
  · unfold errVec
    rw [show (9 : Nat) = 3 + (3 + 3) by rfl, rd_split, rd_split, show o.data + 3 + 3 = o.data + 6 by rfl, e3,
      rd_same (m := m3) (m' := m4) 3 (o.data + 3) fun i h1 h2 => e2 i (by omega), c3,
      rd_same (m := m2) (m' := m4) 3 o.data fun i h1 h2 => by rw [e2 i (by omega), c2 i (by omega)], b3]
    rfl

/-- Three error states in a memory of 27 numbers meet the hypotheses. -/
example : Proper (errNew 9) ∧ Apart 0 9 9 ∧ Apart 9 18 9 ∧ Alive (fun i => if i < 27 then some (i : ℝ) else none) 18 9 := by
  refine ⟨rfl, Or.inl (by omega), Or.inl (by omega), ?_⟩
  intro i h1 h2
  exact ⟨i, if_pos (by omega)⟩

end Verif.Props.Copies
