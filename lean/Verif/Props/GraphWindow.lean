import Verif.Model.Graph
import Verif.Props.CircularBuffer

/-!
# C139: how many states a graph keeps
-/

namespace Verif.Props.GraphWindow

open Verif Verif.CB Verif.Model.Graph Verif.Props.CircularBuffer

theorem window {α : Type} (cap : ℕ) (hc : 1 ≤ cap) (ns : List α) :
    DequeSpec.run cap (ns.map CB.Op.emplaceBack) = ns.drop (ns.length - cap) := by
  induction ns using List.reverseRecOn with
  | nil => simp [DequeSpec.run]
  | append_singleton ns v ih =>
    unfold DequeSpec.run at ih ⊢
    rw [List.map_append, List.foldl_append, ih]
    simp only [List.map_cons, List.map_nil, List.foldl_cons, List.foldl_nil, DequeSpec.step, DequeSpec.pushBack, List.length_drop,
      List.length_append, List.length_cons, List.length_nil]
    split_ifs with h
    · rw [List.drop_drop, List.drop_append_of_le_length (by omega)]
      congr 2
      omega
    · rw [List.drop_append_of_le_length (by omega)]
      congr 2
      omega

theorem legal {α : Type} (cap : ℕ) (ns : List α) : ∀ l : List α, DequeSpec.Legal cap l (ns.map CB.Op.emplaceBack) := by
  induction ns with
  | nil => intro l; trivial
  | cons v ns ih => intro l; exact ⟨trivial, ih _⟩

/-- **C139**: the buffer of a graph keeps the 25 newest of the states that were appended to it, in their order. -/
theorem C139_window (ns : List Node) :
    CB.iterate maxLen (CB.run maxLen (ns.map CB.Op.emplaceBack)) maxLen (CB.run maxLen (ns.map CB.Op.emplaceBack)).head =
      (ns.drop (ns.length - 25)).map some := by
  rw [C01_ring_is_bounded_deque maxLen (by norm_num [maxLen]) (by norm_num [maxLen]) _ (legal _ ns []), window _ (by norm_num [maxLen])]
  rfl

/-- Of thirty states the first five are gone. -/
example (n : ℕ → Node) : ((List.range 30).map n).drop (((List.range 30).map n).length - 25) = ((List.range 25).map fun i => n (i + 5)) := by
  simp [List.range_succ]

end Verif.Props.GraphWindow
