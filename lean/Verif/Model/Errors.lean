/-!
# Errors and results

`common/error.h`, `common/error_result.h`: an error is a pointer to a text, the null pointer
means "no error"; a result is a variant of an error and a value; two macros hand errors on.

Simplifications: the memory is a partial map from addresses to the texts that stand there (`none`:
nothing lives at the address), not bytes; the text at an address is the list of its characters
up to the terminating zero.  A function with side effects is a function of the state of the
program.  Reading through a null or dangling pointer is `none`.
-/

namespace Verif.Model.Errors

/-- The texts that live in the memory, by address. -/
abbrev Store := Nat → Option (List Nat)

/-- `class Error` (`common/error.h` 18-74): `const char* what_`, `none` for the null pointer. -/
structure Error where
  what : Option Nat
deriving DecidableEq

/-- `Error::none()` (`common/error.h` 50): the null pointer. -/
def Error.null : Error := ⟨none⟩

/-- `Error::ok()` (`common/error.h` 72): is the pointer null? -/
def Error.ok (e : Error) : Bool := e.what.isNone

/-- `operator==(const Error&)` (`common/error.h` 52-55): the addresses are compared. -/
def Error.eq (e f : Error) : Bool := decide (e.what = f.what)

/-- `operator!=(const Error&)` (`common/error.h` 57-60). -/
def Error.ne (e f : Error) : Bool := decide (e.what ≠ f.what)

/-- `toArray(_what)` (`common/error.h` 35-39): the array of `N` characters that a text of
`N - 1` characters and its terminating zero fill; `len` is its size (`common/error.h` 46). -/
def arraySize (text : List Nat) : Nat := text.length + 1

/-- `Error::create` (`common/error.h` 42-49) for an array of characters at the address `a` with
the text `text`: it compiles (`some`) if `len > 0` (`static_assert`, 47); the error points to the
array.  `toArray(_what)` is the operand of a `decltype` and never evaluated, so that the array may
be of any kind. -/
def create (a : Nat) (text : List Nat) : Option Error :=
  if 0 < arraySize text then some ⟨some a⟩ else none

/-- `operator<<(std::ostream&, const Error&)` (`common/error.h` 76-80): the text the pointer
points to; the null pointer and a dangling pointer are undefined behaviour. -/
def print (m : Store) (e : Error) : Option (List Nat) := e.what.bind m

/-- The return of a function: the arrays `frame` among its variables live no longer. -/
def leave (frame : List Nat) (m : Store) : Store := fun a => if a ∈ frame then none else m a

/-- `ErrorResult<T>::data_` (`common/error_result.h` 19): `std::variant<Error, T>`. -/
inductive Result (α : Type) where
  | err (e : Error)
  | val (a : α)

/-- `ErrorResult(const Error&)` (`common/error_result.h` 26-29): `check` ends the program (`none`)
if the error is none — unless the checks are switched off (`common/check.cxx` 17,
`DISABLE_CHECK`). -/
def ofError {α : Type} (checks : Bool) (e : Error) : Option (Result α) :=
  if checks && e.ok then none else some (.err e)

/-- `ErrorResult::ok()` (`common/error_result.h` 31): is the value the alternative held? -/
def Result.ok {α : Type} : Result α → Bool
  | .err _ => false
  | .val _ => true

/-- `ErrorResult::res()` (`common/error_result.h` 33): `std::get<1>`, which throws (`none`) if the
error is held. -/
def Result.res {α : Type} : Result α → Option α
  | .err _ => none
  | .val a => some a

/-- `ErrorResult::err()` (`common/error_result.h` 34): `std::get<0>`. -/
def Result.error {α : Type} : Result α → Option Error
  | .err e => some e
  | .val _ => none

/-- What a macro does in the function that uses it: go on with a value, return an error, or throw
`std::bad_variant_access`. -/
inductive Flow (α : Type) where
  | go (a : α)
  | ret (e : Error)
  | thrown

/-- `RETURN_OR_ASSIGN(err_result)` (`common/error_result.h` 6-13): the argument stands three times
in the text of the macro; `f` is its evaluation.  One evaluation is asked `ok()`; another gives
`err()` or `res()`. -/
def returnOrAssign {σ α : Type} (f : σ → Result α × σ) (s : σ) : Flow α × σ :=
  let p := f s
  let q := f p.2
  if p.1.ok then
    match q.1.res with
    | some a => (.go a, q.2)
    | none => (.thrown, q.2)
  else
    match q.1.error with
    | some e => (.ret e, q.2)
    | none => (.thrown, q.2)

/-- A function that assigns `n` values one after the other, each by `RETURN_OR_ASSIGN(f())`, and
then returns `Error::none()`: the values assigned, how the function ends (`go ()`: to its end)
and the state. -/
def assignMany {σ α : Type} (f : σ → Result α × σ) : Nat → σ → List α × Flow Unit × σ
  | 0, s => ([], .go (), s)
  | n + 1, s =>
    match returnOrAssign f s with
    | (.go a, s') =>
      let r := assignMany f n s'
      (a :: r.1, r.2)
    | (.ret e, s') => ([], .ret e, s')
    | (.thrown, s') => ([], .thrown, s')

/-- A function whose body is `RETURN_IF_NOT_OK(step)` (`common/error.h` 9-16) for each of the
steps and `return Error::none()`: every argument stands once in the text of the macro. -/
def returnIfNotOk {σ : Type} : List (σ → Error × σ) → σ → Error × σ
  | [], s => (Error.null, s)
  | f :: fs, s =>
    let p := f s
    if !p.1.ok then p else returnIfNotOk fs p.2

/-- An argument of the macro: a variable of the function that uses it, or a call. -/
inductive Arg where
  | var (name : String)
  | call (e : Error)

/-- The value of an argument in a scope. -/
def Arg.eval (scope : String → Error) : Arg → Error
  | .var n => scope n
  | .call e => e

/-- One `RETURN_IF_NOT_OK(expr)` (`common/error.h` 9-16) by the names: `const Error err = (expr);`
declares `err` before its initialiser, so that `err` in `expr` is the new variable, which holds
`junk`.  `some e`: the function returns `e`; `none`: it goes on. -/
def named (junk : Error) (scope : String → Error) (x : Arg) : Option Error :=
  let inner := fun n => if n = "err" then junk else scope n
  let err := x.eval inner
  if !err.ok then some err else none

end Verif.Model.Errors
