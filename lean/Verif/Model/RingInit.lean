import Verif.Model.Layout
import Verif.Model.Ring
/-!
# The constructor of `CircularBuffer`

`Ring.init` is the state the constructor leaves behind; here the constructor itself: an allocation of bytes and a loop that constructs one
`Node` per slot, whose index is an `int`.
-/
namespace Soralog
namespace RingInit
open Layout

/-- The memory of `raw_data_`: at which offsets a `Node` has been constructed, in this order, and the `busy` flags of the nodes.
[circular_buffer.hpp:41, 97-103, 210] -/
structure Mem where
  made : List Nat
  flag : Nat → Option Bool

/-- `raw_data_(capacity_ * element_size_)`: bytes, no objects. [circular_buffer.hpp:97] -/
def Mem.bytes : Mem := ⟨[], fun _ => none⟩

/-- `new (raw_data_.data() + element_size_ * index) Node`: `busy` is initialised with `false`, the bytes of the element are not.
[circular_buffer.hpp:41, 45, 101] -/
def Mem.node (m : Mem) (at' : Nat) : Mem := ⟨m.made ++ [at'], fun x => if x = at' then some false else m.flag x⟩

/-- the largest value of `int`. [`auto index = 0`, circular_buffer.hpp:98] -/
def intMax : Nat := 2 ^ 31 - 1

/-- `for (auto index = 0; index < capacity; ++index) …`: `index` is an `int` that is never negative, so that the comparison with a `size_t`
compares the numbers; `none`: `++index` overflows, which is undefined. [circular_buffer.hpp:98-102] -/
def loop (sz al capacity padding : Nat) (index : Nat) (m : Mem) : Option Mem :=
  if index < capacity then
    if h : index < intMax then loop sz al capacity padding (index + 1) (m.node (slotOffset sz al padding index))
    else none
  else some m
termination_by intMax - index

/-- `CircularBuffer(capacity, padding)` for elements of size `sz` and alignment `al`. [circular_buffer.hpp:88-103] -/
def construct (sz al capacity padding : Nat) : Option Mem := loop sz al capacity padding 0 .bytes

end RingInit
end Soralog
