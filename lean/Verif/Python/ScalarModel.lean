import Mathlib.Data.Real.Basic

/-!
Numbers that Python and C++ share: the classes `Scalar` and `ScalarRef` (python/ikarus/_ikarus.cc:34-70 and 99-101,
ikarus/python/finiteelements/scalarwrapper.hh), the load factor of a requirement in Python and the last argument of a scalar
callback of an assembler manipulator (ikarus/python/assembler/flatassemblermanipulator.hh:82-86).

Simplifications: numbers are real; Python's `int` and `float` are one kind of number. Statements are assignments and in-place
operations on names, expressions are names, numbers, sums, differences, negations, products and constructions. Comparison
(`__eq__`, with a tolerance) and printing (`__repr__`) are left out.
-/

namespace Ikarus.PyScalar

/-- `Scalar` is `ScalarWrapper<double>` (it owns its number), `ScalarRef` is `ScalarWrapper<std::reference_wrapper<double>>`,
_ikarus.cc:99-101. -/
inductive Kind
  | own
  | ref
  deriving DecidableEq, Repr

/-- Values of Python: numbers, and wrappers with the place of the number (`val`, scalarwrapper.hh:126). -/
inductive Val
  | num (x : ℝ)
  | wrapper (k : Kind) (cell : Nat)

/-- What a statement may end in: regularly, with a `TypeError` of Python, in undefined behaviour, or with a number that is not
real. -/
inductive Result (α : Type)
  | ok (a : α)
  | typeError
  | undef
  | notReal

/-- Sequencing. -/
def Result.bind {α β : Type} : Result α → (α → Result β) → Result β
  | .ok a, f => f a
  | .typeError, _ => .typeError
  | .undef, _ => .undef
  | .notReal, _ => .notReal

/-- The numbers in memory, the names of Python, and the first place that was never used. -/
structure State where
  cells : Nat → ℝ
  vars : String → Option Val
  next : Nat

/-- Expressions of Python. -/
inductive Expr
  | name (x : String)
  | lit (c : ℝ)
  | add (a b : Expr)
  | sub (a b : Expr)
  | neg (a : Expr)
  | mul (a b : Expr)
  | new (k : Kind) (a : Expr)

/-- `__add__` and `__sub__`, _ikarus.cc:58-59 with scalarwrapper.hh:60-70: both wrappers of the same class, the result is a
number; there is no conversion of a number to a wrapper. -/
def addVal (f : ℝ → ℝ → ℝ) (s : State) : Val → Val → Result Val
  | .num x, .num y => .ok (.num (f x y))
  | .wrapper k i, .wrapper k' j => if k = k' then .ok (.num (f (s.cells i) (s.cells j))) else .typeError
  | _, _ => .typeError

/-- `__mul__` and `__rmul__`, _ikarus.cc:65-66 with scalarwrapper.hh:83 and 134-136: a wrapper and a number. -/
def mulVal (s : State) : Val → Val → Result Val
  | .num x, .num y => .ok (.num (x * y))
  | .wrapper _ i, .num y => .ok (.num (s.cells i * y))
  | .num x, .wrapper _ j => .ok (.num (x * s.cells j))
  | .wrapper _ _, .wrapper _ _ => .typeError

/-- `__neg__`, _ikarus.cc:62 with scalarwrapper.hh:76. -/
def negVal (s : State) : Val → Val
  | .num x => .num (-x)
  | .wrapper _ i => .num (-s.cells i)

/-- The constructors, _ikarus.cc:44-47. A copy of a `Scalar` has its own number, a copy of a `ScalarRef` refers to the same
number. A `ScalarRef` made from a number refers to the place of the converted argument, which ends with the call: undefined
behaviour (at its next use; here already at the construction). -/
def construct (s : State) : Kind → Val → Result (State × Val)
  | .own, .num x => .ok ({ s with cells := Function.update s.cells s.next x, next := s.next + 1 }, .wrapper .own s.next)
  | .own, .wrapper .own i =>
    .ok ({ s with cells := Function.update s.cells s.next (s.cells i), next := s.next + 1 }, .wrapper .own s.next)
  | .ref, .wrapper .ref i => .ok (s, .wrapper .ref i)
  | .ref, .num _ => .undef
  | _, _ => .typeError

/-- Evaluation from left to right. A name that is not bound is a `NameError`, counted among the type errors. -/
def eval : Expr → State → Result (State × Val)
  | .name x, s => match s.vars x with
    | some v => .ok (s, v)
    | none => .typeError
  | .lit c, s => .ok (s, .num c)
  | .add a b, s => (eval a s).bind fun p => (eval b p.1).bind fun q => (addVal (· + ·) q.1 p.2 q.2).bind fun v => .ok (q.1, v)
  | .sub a b, s => (eval a s).bind fun p => (eval b p.1).bind fun q => (addVal (· - ·) q.1 p.2 q.2).bind fun v => .ok (q.1, v)
  | .neg a, s => (eval a s).bind fun p => .ok (p.1, negVal p.1 p.2)
  | .mul a b, s => (eval a s).bind fun p => (eval b p.1).bind fun q => (mulVal q.1 p.2 q.2).bind fun v => .ok (q.1, v)
  | .new k a, s => (eval a s).bind fun p => construct p.1 k p.2

/-- The in-place operators `+=`, `-=`, `*=`, `/=`. -/
inductive InPlace
  | add
  | sub
  | mul
  | div

/-- Statements of Python. -/
inductive Stmt
  | assign (x : String) (e : Expr)
  | inPlace (x : String) (o : InPlace) (e : Expr)

/-- Binding of a name. -/
def State.bindName (s : State) (x : String) (v : Val) : State := { s with vars := Function.update s.vars x (some v) }

/-- Writing a number. -/
def State.write (s : State) (i : Nat) (x : ℝ) : State := { s with cells := Function.update s.cells i x }

/-- An in-place operation on the value of a name, _ikarus.cc:60-64 with scalarwrapper.hh:90-123. The operators return `*this`,
for which pybind11 finds the object that exists already: the name stays bound to it. Numbers are immutable: the name is bound to
the result. A quotient of a number by a number in Python is a `ZeroDivisionError` for zero; in C++ it is not a real number. -/
noncomputable def inPlaceVal (s : State) (x : String) : InPlace → Val → Val → Result State
  | .add, .wrapper k i, .wrapper k' j => if k = k' then .ok (s.write i (s.cells i + s.cells j)) else .typeError
  | .sub, .wrapper k i, .wrapper k' j => if k = k' then .ok (s.write i (s.cells i - s.cells j)) else .typeError
  | .mul, .wrapper _ i, .num y => .ok (s.write i (s.cells i * y))
  | .div, .wrapper _ i, .num y => if y = 0 then .notReal else .ok (s.write i (s.cells i / y))
  | .add, .num a, v => (addVal (· + ·) s (.num a) v).bind fun w => .ok (s.bindName x w)
  | .sub, .num a, v => (addVal (· - ·) s (.num a) v).bind fun w => .ok (s.bindName x w)
  | .mul, .num a, v => (mulVal s (.num a) v).bind fun w => .ok (s.bindName x w)
  | .div, .num a, .num b => if b = 0 then .notReal else .ok (s.bindName x (.num (a / b)))
  | _, _, _ => .typeError

/-- One statement: the name is looked up before the expression is evaluated. -/
noncomputable def exec (s : State) : Stmt → Result State
  | .assign x e => (eval e s).bind fun p => .ok (p.1.bindName x p.2)
  | .inPlace x o e => match s.vars x with
    | some v => (eval e s).bind fun p => inPlaceVal p.1 x o v p.2
    | none => .typeError

/-- A program; it ends at the first statement that does not end regularly. -/
noncomputable def run : List Stmt → State → Result State
  | [], s => .ok s
  | p :: ps, s => (exec s p).bind (run ps)

/-- A scalar callback that is written in Python (flatassemblermanipulator.hh:28-40, 82-86 and 103-109): the name `scalar` is
bound to a `ScalarRef` of the energy of the assembler; numbers that the callback closes over are bound to the other names. -/
noncomputable def callback (consts : String → Option ℝ) (body : List Stmt) (energy : ℝ) : Result ℝ :=
  (run body ⟨fun _ => energy, Function.update (fun x => (consts x).map .num) "scalar" (some (.wrapper .ref 0)), 1⟩).bind
    fun s => .ok (s.cells 0)

end Ikarus.PyScalar
