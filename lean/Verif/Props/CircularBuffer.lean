import Verif.Lemmas.CircularBuffer
/-!
# C01-C04: the ring buffer (common/circular_buffer.h)
-/
namespace Verif.Props.CircularBuffer
open Verif Verif.CB

variable {α : Type}

/-- **C01.** After any history without a pop on an empty buffer, iterating the buffer from
`begin()` to `end()` yields exactly the contents of a deque of capacity `N-1`. -/
theorem C01_ring_is_bounded_deque (N : Nat) (hN : 2 ≤ N) (hb : N < 2 ^ 31)
    (ops : List (Op α)) (legal : DequeSpec.Legal (N - 1) [] ops) :
    iterate N (run N ops) N (run N ops).head = (DequeSpec.run (N - 1) ops).map some :=
  (Rep.run hN hb ops legal).iterate

/-- The loop of `clear()` (and of the destructor) really empties the buffer. -/
theorem C01_clear_terminates_empty (N : Nat) (hN : 2 ≤ N) (hb : N < 2 ^ 31)
    (ops : List (Op α)) (legal : DequeSpec.Legal (N - 1) [] ops) :
    empty (clear N (run N ops)) = true :=
  ((Rep.run hN hb ops legal).clearLoop N (by have := (Rep.run hN hb ops legal).len; omega)).empty_iff.2 rfl

/-- A history that wraps around a 3-slot buffer and evicts on both sides. -/
example : DequeSpec.Legal (3 - 1) ([] : List Nat)
    [.pushBack 1, .emplaceBack 2, .pushBack 3, .popFront, .pushFront 4, .emplaceFront 5,
     .popBack, .clear, .pushBack 6] := by
  simp [DequeSpec.Legal, DequeSpec.allowed, DequeSpec.step, DequeSpec.pushBack,
    DequeSpec.pushFront]

/-- **C02.** In every reachable state the observers agree with the abstract contents `l`. -/
theorem C02_observers_agree (N : Nat) (hN : 2 ≤ N) (hb : N < 2 ^ 31)
    (ops : List (Op α)) (legal : DequeSpec.Legal (N - 1) [] ops) :
    let r := run N ops
    let l := DequeSpec.run (N - 1) ops
    size N r = l.length ∧ size N r ≤ capacity N ∧
    (empty r = true ↔ size N r = 0) ∧ (full N r = true ↔ size N r = capacity N) ∧
    (l ≠ [] → front r = l.head? ∧ back N r = l.getLast?) ∧
    (∀ i : Nat, i < size N r → at' N r (i : Int) = l[i]?) := by
  have h := Rep.run hN hb ops legal
  refine ⟨h.size_eq, ?_, ?_, ?_, ?_, ?_⟩
  · rw [h.size_eq]; have := h.len; unfold capacity; omega
  · rw [h.size_eq, List.length_eq_zero_iff]; exact h.empty_iff
  · rw [h.size_eq]; exact h.full_iff
  · intro hl; exact ⟨h.front_eq hl, h.back_eq hl⟩
  · intro i hi
    rw [h.size_eq] at hi
    rw [h.at_eq i hi, List.getElem?_eq_getElem hi]

/-- The specification itself never exceeds the capacity, so `C02` is not vacuous at the top. -/
example : DequeSpec.run (3 - 1) [Op.pushBack 1, .pushBack 2, .pushBack 3] = [2, 3] := by decide

/-- **C03 (full statement, false).** Popping an empty buffer leaves it empty. -/
def C03_statement : Prop :=
  ∀ (N : Nat), 2 ≤ N → N < 2 ^ 31 → ∀ (ops : List (Op Nat)), DequeSpec.Legal (N - 1) [] ops →
    DequeSpec.run (N - 1) ops = [] →
    empty (popFront N (run N ops)) = true ∧ empty (popBack N (run N ops)) = true

/-- **C03 violated**: on every fresh buffer (every `N`), one `pop_front()` makes `size()` jump
to `N-1` and `full()` true. -/
theorem C03_pop_empty_violated (N : Nat) (hN : 2 ≤ N) (hb : N < 2 ^ 31) :
    size N (popFront N (init : Ring α)) = N - 1 ∧ full N (popFront N (init : Ring α)) = true ∧
    empty (popFront N (init : Ring α)) = false ∧
    size N (popBack N (init : Ring α)) = N - 1 ∧ empty (popBack N (init : Ring α)) = false := by
  have h1 : ¬ (0 + 1 = N) := by omega
  have h2 : toSizeT ((N : Int) - 1) = N - 1 := by unfold toSizeT; omega
  refine ⟨?_, ?_, ?_, ?_, ?_⟩
  · simp [popFront, init, destroy, inc, size, idx, h1]
    unfold toSizeT; omega
  · have : ((0 + 1) % 2 ^ 64) % N = 1 := Nat.mod_eq_of_lt (by omega)
    simp [popFront, init, destroy, inc, full, plus, h1, this]
  · simp [popFront, init, destroy, inc, empty, h1]
  · simp [popBack, init, destroy, dec, size, idx]
    unfold toSizeT; omega
  · simp [popBack, init, destroy, dec, empty]; omega

theorem C03_statement_false : ¬ C03_statement := by
  intro h
  have := (h 2 (by omega) (by omega) [] trivial rfl).1
  revert this; decide

/-- **C03 partial**: a pop on a non-empty buffer removes exactly one element, from the right
end. What is missing: behaviour on the empty buffer, which is wrong (see above). -/
theorem C03_pop_partial (N : Nat) (hN : 2 ≤ N) (hb : N < 2 ^ 31)
    (ops : List (Op α)) (legal : DequeSpec.Legal (N - 1) [] ops)
    (hne : DequeSpec.run (N - 1) ops ≠ []) :
    let f := popFront N (run N ops)
    let b := popBack N (run N ops)
    iterate N f N f.head = ((DequeSpec.run (N - 1) ops).drop 1).map some ∧
    iterate N b N b.head = ((DequeSpec.run (N - 1) ops).dropLast).map some :=
  ⟨((Rep.run hN hb ops legal).popFront hne).iterate,
   ((Rep.run hN hb ops legal).popBack hne).iterate⟩

/-- The negative index of `operator[](int)` does not address the element before the head:
with `N = 3` and `head_ = 0` the expression `b[-1]` reads slot `head_` itself instead of the
slot `2` before it. -/
theorem C02_negative_index_violated :
    plus 3 0 (toSizeT (-1)) = 0 ∧ dec 3 0 = 2 := by decide

/-! ### C04: lifetimes -/

/-- **C04 (full statement, false).** No history causes a lifetime fault, and after the
destructor (which calls `clear()`) no object is left alive. -/
def C04_statement : Prop :=
  ∀ (N : Nat), 2 ≤ N → N < 2 ^ 31 → ∀ (ops : List (Op Nat)), DequeSpec.Legal (N - 1) [] ops →
    (clear N (run N ops)).faults = 0 ∧ ∀ p, (clear N (run N ops)).live p = false

/-- **C04 violated** by `pop_back`: it destroys the unused past-the-end slot, and the popped
element (here the only one) stays alive forever, even after the destructor. -/
theorem C04_pop_back_violated :
    let r := clear 3 (run 3 [Op.emplaceBack 7, .popBack])
    r.faults = 1 ∧ r.live 0 = true := by decide

/-- **C04 violated** by `push_back` on a fresh buffer: assignment to a slot with no object, and
the destructor then destroys it. -/
theorem C04_push_back_violated :
    (run 3 [Op.pushBack 7]).faults = 1 ∧ (clear 3 (run 3 [Op.pushBack 7])).faults = 2 := by
  decide

theorem C04_statement_false : ¬ C04_statement := by
  intro h
  have := (h 3 (by omega) (by omega) [.emplaceBack 7, .popBack]
    (by simp [DequeSpec.Legal, DequeSpec.allowed, DequeSpec.step, DequeSpec.pushBack])).1
  revert this; decide

/-- The calls that respect lifetimes: `emplace_back`, `pop_front`, `clear`, and `emplace_front`
while the buffer is not full. -/
def Disciplined (cap : Nat) : List α → List (Op α) → Prop
  | _, [] => True
  | l, op :: ops =>
    (match op with
      | .emplaceBack _ => True
      | .emplaceFront _ => l.length < cap
      | .popFront => l ≠ []
      | .clear => True
      | _ => False) ∧ Disciplined cap (DequeSpec.step cap l op) ops

theorem clean_run (N : Nat) (ops : List (Op α)) (r : Ring α) (l : List α) (h : Clean N r l)
    (d : Disciplined (N - 1) l ops) :
    Clean N (ops.foldl (step N) r) (ops.foldl (DequeSpec.step (N - 1)) l) := by
  induction ops generalizing r l with
  | nil => exact h
  | cons op ops ih =>
    obtain ⟨d1, d2⟩ := d
    refine ih _ _ ?_ d2
    cases op with
    | emplaceBack v => exact h.emplaceBack v
    | emplaceFront v =>
      have d1 : l.length < N - 1 := d1
      have := h.emplaceFront v d1
      have e : DequeSpec.step (N - 1) l (.emplaceFront v) = v :: l := by
        simp [DequeSpec.step, DequeSpec.pushFront, show ¬ l.length = N - 1 by omega]
      rw [e]; exact this
    | popFront => exact h.popFront d1
    | clear => exact h.clearLoop N (by have := h.rep.len; omega)
    | pushBack v => exact d1.elim
    | pushFront v => exact d1.elim
    | popBack => exact d1.elim

/-- **C04 partial**: for disciplined histories there is never a lifetime fault, the live slots
are exactly the elements, and after the destructor nothing is alive.  Missing: `push_back`,
`push_front`, `pop_back` and `emplace_front` on a full buffer, which break it. -/
theorem C04_lifetimes_partial (N : Nat) (hN : 2 ≤ N) (hb : N < 2 ^ 31)
    (ops : List (Op α)) (d : Disciplined (N - 1) [] ops) :
    (run N ops).faults = 0 ∧
    (∀ p, (run N ops).live p = true ↔
      ∃ i, i < size N (run N ops) ∧ p = plus N (run N ops).head i) ∧
    (clear N (run N ops)).faults = 0 ∧ ∀ p, (clear N (run N ops)).live p = false := by
  have h := clean_run N ops _ _ (clean_init hN hb) d
  have hc := h.clearLoop N (by have := h.rep.len; omega)
  refine ⟨h.noFault, ?_, hc.noFault, ?_⟩
  · intro p
    have e1 : size N (run N ops) = (ops.foldl (DequeSpec.step (N - 1)) ([] : List α)).length :=
      h.rep.size_eq
    have e2 : run N ops = ops.foldl (step N) init := rfl
    rw [e1, e2]
    refine (h.live p).trans ?_
    constructor
    · rintro ⟨i, hi, e⟩
      exact ⟨i, hi, by rw [plus_eq hb h.rep.hhead (by have := h.rep.len; omega)]; exact e⟩
    · rintro ⟨i, hi, e⟩
      refine ⟨i, hi, ?_⟩
      rw [plus_eq hb h.rep.hhead (by have := h.rep.len; omega)] at e; exact e
  · intro p
    rw [← Bool.not_eq_true]
    intro hp
    obtain ⟨i, hi, -⟩ := (hc.live p).1 hp
    simp at hi

example : Disciplined (3 - 1) ([] : List Nat)
    [.emplaceBack 1, .emplaceBack 2, .emplaceBack 3, .popFront, .emplaceFront 4, .clear] := by
  simp [Disciplined, DequeSpec.step, DequeSpec.pushBack]

end Verif.Props.CircularBuffer
