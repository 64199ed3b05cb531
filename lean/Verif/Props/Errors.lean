import Verif.Model.Errors
import Mathlib.Data.List.Basic
import Mathlib.Tactic.Ring

/-!
# C134: errors reach the caller

The first error of a sequence of steps is what the function returns, nothing after it is run, and
the values assigned are those of one evaluation of each call.
-/

namespace Verif.Props.Errors

open Model.Errors

/-! ## Texts and pointers -/

/-- Errors that compare equal print the same text — or neither prints — in every memory, and
`!=` is the negation of `==`; `==` is an equivalence. -/
theorem C134_equal (e f g : Error) (m : Store) :
    (e.eq f = true → print m e = print m f ∧ e.ok = f.ok) ∧ e.ne f = !e.eq f ∧
      e.eq e = true ∧ e.eq f = f.eq e ∧ (e.eq f = true → f.eq g = true → e.eq g = true) := by
  refine ⟨?_, ?_, by simp [Error.eq], ?_, ?_⟩
  · intro h
    have h' : e.what = f.what := by simpa [Error.eq] using h
    simp [print, Error.ok, h']
  · by_cases h : e.what = f.what <;> simp [Error.ne, Error.eq, h]
  · by_cases h : e.what = f.what
    · simp [Error.eq, h]
    · simpa [Error.eq, h] using fun h' : f.what = e.what => h h'.symm
  · intro h1 h2
    have h1' : e.what = f.what := by simpa [Error.eq] using h1
    have h2' : f.what = g.what := by simpa [Error.eq] using h2
    simp [Error.eq, h1', h2']

/-- The hypothesis that makes texts decide: no text stands at two addresses. -/
def Pooled (m : Store) : Prop := ∀ a b t, m a = some t → m b = some t → a = b

/-- Where equal texts are stored once, errors compare equal exactly if their texts are equal. -/
theorem C134_texts_partial (m : Store) (hm : Pooled m) (e f : Error) (s t : List Nat)
    (he : print m e = some s) (hf : print m f = some t) : e.eq f = true ↔ s = t := by
  unfold print at he hf
  cases hew : e.what with
  | none => simp [hew] at he
  | some a =>
    cases hfw : f.what with
    | none => simp [hfw] at hf
    | some b =>
      simp only [hew, hfw, Option.bind_some] at he hf
      simp only [Error.eq, hew, hfw, Option.some.injEq, decide_eq_true_eq]
      constructor
      · rintro rfl
        rw [he] at hf
        exact Option.some.inj hf
      · rintro rfl
        exact hm a b s he hf

/-- A memory with the text `hi` at two addresses and `ho` at a third. -/
def store : Store := fun a =>
  if a = 100 ∨ a = 200 then some [104, 105] else if a = 300 then some [104, 111] else none

example : create 100 [104, 105] = some ⟨some 100⟩ ∧ print store ⟨some 100⟩ = some [104, 105] := by
  decide

/-- Two errors created from equal texts need not compare equal. -/
theorem C134_texts_violated : ∃ (m : Store) (t : List Nat) (a b : Nat) (e f : Error),
    m a = some t ∧ m b = some t ∧ create a t = some e ∧ create b t = some f ∧
      print m e = print m f ∧ e.eq f = false :=
  ⟨store, [104, 105], 100, 200, ⟨some 100⟩, ⟨some 200⟩, by decide⟩

/-- Every text makes an error that is not ok and prints the text; none is ok. -/
theorem C134_create (m : Store) (a : Nat) (t : List Nat) (h : m a = some t) :
    ∃ e, create a t = some e ∧ e.ok = false ∧ print m e = some t ∧ Error.null.ok = true ∧
      e.eq Error.null = false := by
  refine ⟨⟨some a⟩, ?_, rfl, ?_, rfl, ?_⟩
  · simp [create, arraySize]
  · simp [print, h]
  · simp [Error.eq, Error.null]

/-- The assertion "cannot create error with empty message" never fails: the empty text makes an
error too. -/
theorem C134_empty_violated (a : Nat) : ∃ e, create a [] = some e ∧ e.ok = false :=
  ⟨⟨some a⟩, by simp [create, arraySize], rfl⟩

/-- Printing "no error" is undefined, whatever the memory. -/
theorem C134_print_violated (m : Store) : print m Error.null = none := rfl

/-- A text outside the variables of the functions that return stays readable. -/
theorem C134_static (frames : List (List Nat)) (m : Store) (a : Nat) (t : List Nat) (e : Error)
    (h : m a = some t) (hf : ∀ fr ∈ frames, a ∉ fr) (he : create a t = some e) :
    print (frames.foldl (fun m fr => leave fr m) m) e = some t := by
  have he' : e = ⟨some a⟩ := by
    simp only [create, arraySize, Nat.zero_lt_succ, if_true, Option.some.injEq] at he
    exact he.symm
  subst he'
  induction frames generalizing m with
  | nil => simpa [print] using h
  | cons fr frs ih =>
    simp only [List.foldl_cons]
    refine ih (leave fr m) ?_ (fun g hg => hf g (List.mem_cons_of_mem _ hg))
    simp [leave, hf fr List.mem_cons_self, h]

example : print ([[300], [7, 8]].foldl (fun m fr => leave fr m) store) ⟨some 100⟩ =
    some [104, 105] := by decide

/-- `create` accepts the array of a function's own variable too, and the error that reaches the
caller is then dangling: not ok and unreadable. -/
theorem C134_local_violated : ∃ (m : Store) (a : Nat) (t : List Nat) (e : Error),
    m a = some t ∧ create a t = some e ∧ print m e = some t ∧ e.ok = false ∧
      print (leave [a] m) e = none :=
  ⟨store, 300, [104, 111], ⟨some 300⟩, by decide⟩

/-! ## Results -/

/-- A result holds exactly what it was made of; the other alternative throws. -/
theorem C134_result {α : Type} (a : α) (e : Error) (h : e.ok = false) (checks : Bool) :
    (Result.val a).ok = true ∧ (Result.val a).res = some a ∧ (Result.val a).error = none ∧
      ∃ r : Result α, ofError checks e = some r ∧ r.ok = false ∧ r.error = some e ∧
        r.res = none :=
  ⟨rfl, rfl, rfl, .err e, by simp [ofError, h], rfl, rfl, rfl⟩

/-- With the checks on, no result that can be made is an error that is ok. -/
theorem C134_consistent {α : Type} (e : Error) (r : Result α) (h : ofError true e = some r) :
    r.ok = false ∧ r.error = some e ∧ e.ok = false := by
  cases hk : e.ok with
  | true => simp [ofError, hk] at h
  | false =>
    simp only [ofError, hk, Bool.and_false, Bool.false_eq_true, if_false,
      Option.some.injEq] at h
    subst h
    exact ⟨rfl, rfl, rfl⟩

/-- With the checks off, a result can be not ok and its error ok: the caller that hands the error
on reports success without a value. -/
theorem C134_release_violated : ∃ (e : Error) (r : Result Nat),
    ofError false e = some r ∧ r.ok = false ∧ r.res = none ∧
      ∃ x, r.error = some x ∧ x.ok = true :=
  ⟨Error.null, .err Error.null, rfl, rfl, rfl, Error.null, rfl, rfl⟩

/-! ## A sequence of steps -/

/-- Specification: the state before step `k`, every earlier step having been run once. -/
def before {σ : Type} (steps : List (σ → Error × σ)) (s : σ) (k : Nat) : σ :=
  (steps.take k).foldl (fun s f => (f s).2) s

/-- The error a sequence of `RETURN_IF_NOT_OK` returns is that of the first step that fails, in
the state the steps before it made; no later step is run.  If none fails, the function reaches
its end. -/
theorem C134_first {σ : Type} (steps : List (σ → Error × σ)) (s : σ) :
    (∃ k, ∃ h : k < steps.length,
      (∀ j, ∀ hj : j < k, (steps[j] (before steps s j)).1.ok = true) ∧
      (steps[k] (before steps s k)).1.ok = false ∧
      returnIfNotOk steps s = steps[k] (before steps s k)) ∨
    ((∀ j, ∀ hj : j < steps.length, (steps[j] (before steps s j)).1.ok = true) ∧
      returnIfNotOk steps s = (Error.null, before steps s steps.length)) := by
  induction steps generalizing s with
  | nil => right; exact ⟨by simp, rfl⟩
  | cons f fs ih =>
    cases hf : (f s).1.ok with
    | false =>
      left
      refine ⟨0, by simp, by simp, by simpa [before] using hf, ?_⟩
      simp [returnIfNotOk, hf, before]
    | true =>
      have hstep : returnIfNotOk (f :: fs) s = returnIfNotOk fs (f s).2 := by
        simp [returnIfNotOk, hf]
      have hb : ∀ j, before (f :: fs) s (j + 1) = before fs (f s).2 j := by
        intro j; simp [before]
      rcases ih (f s).2 with ⟨k, hk, hlt, hbad, hret⟩ | ⟨hall, hret⟩
      · left
        refine ⟨k + 1, by simpa using hk, ?_, ?_, ?_⟩
        · intro j hj
          cases j with
          | zero => simpa [before] using hf
          | succ j =>
            have := hlt j (by omega)
            simpa [hb] using this
        · simpa [hb] using hbad
        · rw [hstep, hret]
          simp [hb]
      · right
        refine ⟨?_, ?_⟩
        · intro j hj
          cases j with
          | zero => simpa [before] using hf
          | succ j =>
            have := hall j (by simpa using hj)
            simpa [hb] using this
        · rw [hstep, hret, List.length_cons, hb]

/-- Three steps that count themselves, the second fails with the text at 100. -/
def three : List (Nat → Error × Nat) :=
  [fun n => (Error.null, n + 1), fun n => (⟨some 100⟩, n + 1), fun n => (⟨some 200⟩, n + 1)]

example : returnIfNotOk three 0 = (⟨some 100⟩, 2) := rfl

/-- The specification of one `RETURN_IF_NOT_OK(x)`: the error the argument has where the macro is
written, if it is not ok. -/
def handOn (scope : String → Error) (x : Arg) : Option Error :=
  if (x.eval scope).ok then none else some (x.eval scope)

/-- An argument that does not name a variable `err` is handed on as it stands, whatever an
uninitialised variable holds. -/
theorem C134_hygiene_partial (junk : Error) (scope : String → Error) (x : Arg)
    (h : x ≠ .var "err") : named junk scope x = handOn scope x := by
  have hx : x.eval (fun n => if n = "err" then junk else scope n) = x.eval scope := by
    cases x with
    | call e => rfl
    | var n =>
      have hn : n ≠ "err" := fun hn => h (by rw [hn])
      simp [Arg.eval, hn]
  unfold named handOn
  simp only [hx]
  cases (x.eval scope).ok <;> rfl

/-- A variable named `err` is not: the error is lost, or a success returned as an error, depending
on what the new variable happened to hold. -/
theorem C134_hygiene_violated :
    (∃ junk scope, (scope "err").ok = false ∧ named junk scope (.var "err") = none) ∧
      ∃ junk scope, (scope "err").ok = true ∧
        named junk scope (.var "err") = some ⟨some 4096⟩ :=
  ⟨⟨⟨none⟩, fun _ => ⟨some 100⟩, rfl, rfl⟩, ⟨⟨some 4096⟩, fun _ => ⟨none⟩, rfl, rfl⟩⟩

/-! ## Values assigned -/

/-- Specification: the call is evaluated once; its value is assigned or its error returned. -/
def once {σ α : Type} (f : σ → Result α × σ) (s : σ) : Flow α × σ :=
  match f s with
  | (.val a, s') => (.go a, s')
  | (.err e, s') => (.ret e, s')

/-- `RETURN_OR_ASSIGN` of a call that can be repeated without effect is what one evaluation
gives. -/
theorem C134_assign_partial {σ α : Type} (f : σ → Result α × σ) (s : σ)
    (h : f (f s).2 = f s) : returnOrAssign f s = once f s := by
  unfold returnOrAssign once
  simp only [h]
  rcases hf : f s with ⟨r, s'⟩
  cases r <;> rfl

/-- What `RETURN_OR_ASSIGN` does with any call: the second evaluation decides the value and the
error, and the exception is thrown exactly if the two disagree about `ok`. -/
theorem C134_twice {σ α : Type} (f : σ → Result α × σ) (s : σ) :
    (returnOrAssign f s).2 = (f (f s).2).2 ∧
      ((returnOrAssign f s).1 = .thrown ↔ (f s).1.ok ≠ (f (f s).2).1.ok) ∧
      (∀ a, (returnOrAssign f s).1 = .go a → (f (f s).2).1 = .val a) ∧
      ∀ e, (returnOrAssign f s).1 = .ret e → (f (f s).2).1 = .err e := by
  unfold returnOrAssign
  simp only
  rcases f s with ⟨r, s'⟩
  rcases f s' with ⟨q, s''⟩
  cases r <;> cases q <;> simp [Result.ok, Result.res, Result.error]

/-- The next value of a list, an error at its end. -/
def pop : List Nat → Result Nat × List Nat
  | [] => (.err ⟨some 100⟩, [])
  | a :: as => (.val a, as)

/-- Specification of the defect: every second element. -/
def seconds : List Nat → List Nat
  | _ :: b :: l => b :: seconds l
  | _ => []

/-- `n` assignments from a list of `2 n` values succeed and assign every second value only. -/
theorem C134_skips_violated (n : Nat) (l : List Nat) (h : l.length = 2 * n) :
    assignMany pop n l = (seconds l, .go (), []) := by
  induction n generalizing l with
  | zero =>
    have : l = [] := List.length_eq_zero_iff.1 (by simpa using h)
    subst this; rfl
  | succ n ih =>
    match l, h with
    | [], h => simp at h
    | [a], h => simp at h; omega
    | a :: b :: l, h =>
      have hl : l.length = 2 * n := by simp at h; omega
      simp [assignMany, returnOrAssign, pop, Result.ok, Result.res, ih l hl, seconds]

/-- With a list of odd length the function throws instead of returning the error at the end of
the list. -/
theorem C134_throws_violated (n : Nat) (l : List Nat) (h : l.length = 2 * n + 1) :
    (assignMany pop (n + 1) l).2.1 = .thrown := by
  induction n generalizing l with
  | zero =>
    match l, h with
    | [a], _ => rfl
  | succ n ih =>
    match l, h with
    | [], h => simp at h
    | [a], h => simp at h
    | a :: b :: l, h =>
      have hl : l.length = 2 * n + 1 := by simp at h; omega
      have := ih l hl
      rw [assignMany]
      simp only [returnOrAssign, pop, Result.ok, Result.res, if_true]
      exact this

/-- The claim: a macro hands on what one evaluation of its argument gives. -/
def C134_statement : Prop :=
  ∀ (f : List Nat → Result Nat × List Nat) (s : List Nat), returnOrAssign f s = once f s

theorem C134_statement_false : ¬ C134_statement := by
  intro h
  have := h pop [1, 2]
  simp [returnOrAssign, once, pop, Result.ok, Result.res] at this

example : assignMany pop 2 [1, 2, 3, 4] = ([2, 4], .go (), []) := rfl

/-- A call of a function without state, as the one test of the macro has it. -/
example : returnOrAssign (fun s : Nat => (Result.val 3, s)) 7 = (.go 3, 7) := rfl

end Verif.Props.Errors
