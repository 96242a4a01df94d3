/-
Model of the exceptions of /repo: src/util/matrix_multiplication_exception.hpp and
src/memory_layout/memory_layout_exception.hpp, with the lifetimes of the strings involved. An address
stands for the buffer of a `std::string`; where a buffer is put (heap, or inside of a short string) is
left open.
-/
namespace Verif.Exceptions

/-- The buffers that are alive and their texts. -/
structure Store where
  text : Nat → Option String

/-- The buffer at `p` gets another text, or is released (`none`). -/
def Store.put (s : Store) (p : Nat) (t : Option String) : Store :=
  ⟨fun q => if q = p then t else s.text q⟩

/-- A new string with the text `t`; its buffer is anywhere where none is. -/
def Alloc (s : Store) (t : String) (p : Nat) (s' : Store) : Prop :=
  s.text p = none ∧ s' = s.put p (some t)

/-- The classes of exceptions. -/
inductive Class
  | matrix_multiplication_exception
  | memory_layout_exception

/-- matrix_multiplication_exception.hpp:14 and memory_layout_exception.hpp:14: the literals. -/
def Class.literal : Class → String
  | .matrix_multiplication_exception => "matrix_multiplication_exception: "
  | .memory_layout_exception => "memory_layout_exception: "

/-- matrix_multiplication_exception.hpp:6–8 and memory_layout_exception.hpp:6–8: the member `message`
is a string with its buffer at `message`. -/
structure Exn where
  cls : Class
  message : Nat

/-- matrix_multiplication_exception.hpp:10–11 and memory_layout_exception.hpp:10–11: the constructor
copies the text. -/
def Construct (s : Store) (c : Class) (t : String) (e : Exn) (s' : Store) : Prop :=
  e.cls = c ∧ Alloc s t e.message s'

/-- `std::string operator+(std::string &&, const std::string &)`: the text is appended to the
temporary, which keeps its buffer or gets a new one, and the result takes it over. -/
def Append (s : Store) (a : Nat) (t : String) (b : Nat) (s' : Store) : Prop :=
  ∃ u, s.text a = some u ∧
    ((b = a ∧ s' = s.put a (some (u ++ t))) ∨
     ∃ s1, Alloc s (u ++ t) b s1 ∧ s' = s1.put a none)

/-- matrix_multiplication_exception.hpp:13–15 and memory_layout_exception.hpp:13–15 `what`: a temporary
from the literal, the message appended, the address of its text taken, the temporary destroyed at the
end of the full expression, the address returned. -/
def What (s : Store) (e : Exn) (p : Nat) (s' : Store) : Prop :=
  ∃ m a s1 b s2, s.text e.message = some m ∧ Alloc s e.cls.literal a s1 ∧ Append s1 a m b s2 ∧
    p = b ∧ s' = s2.put b none

end Verif.Exceptions
