/-!
# Model of the storage layout of `CircularBuffer<Event>`

Layout rule of C++ for standard-layout structs on the platforms supported (Itanium ABI): members are placed in
declaration order, each at the next offset that is a multiple of its alignment; the size is rounded up to the
struct's alignment, which is the largest member alignment.
-/
namespace Soralog
namespace Layout

/-- next multiple of `a` at or after `n`. [rule of the ABI, used for event.hpp:157-166 and circular_buffer.hpp:30-46] -/
def roundUp (n a : Nat) : Nat := (n + a - 1) / a * a

/-- (size, alignment) of a member. [rule of the ABI] -/
abbrev Member := Nat × Nat

/-- offsets of the members and first free offset after them. [rule of the ABI, for event.hpp:157-166 and circular_buffer.hpp:41-45] -/
def place : Nat → List Member → List Nat × Nat
  | o, [] => ([], o)
  | o, (sz, al) :: ms =>
    let o' := roundUp o al
    let r := place (o' + sz) ms
    (o' :: r.1, r.2)

/-- Alignment of a struct; rule of the ABI, for event.hpp:157-166 and circular_buffer.hpp:41-45. -/
def maxAlign (ms : List Member) : Nat := ms.foldl (fun a m => max a m.2) 1

/-- `sizeof` of a struct; rule of the ABI, for event.hpp:157-166 and circular_buffer.hpp:41-45. -/
def sizeOf (ms : List Member) : Nat := roundUp (place 0 ms).2 (maxAlign ms)

/-- Data members of `Event`, event.hpp:157-166 (LP64: `time_point`, `size_t`, pointer are 8/8;
`array<char,16>` 16/1; `array<char,32>` 32/1; `Level` 1/1). -/
def eventMembers : List Member :=
  [(8, 8), (8, 8), (16, 1), (8, 8), (32, 1), (8, 8), (1, 1), (8, 8), (8, 8)]

/-- `sizeof(Event)`, event.hpp:157-166, used in event.hpp:165. -/
def eventSize : Nat := sizeOf eventMembers
/-- `alignof(Event)`, event.hpp:157-166. -/
def eventAlign : Nat := maxAlign eventMembers

/-- Data members of `Node`, circular_buffer.hpp:41-45, for an element type of size `sz` and alignment `al`. -/
def nodeMembers (sz al : Nat) : List Member := [(1, 1), (sz, al)]

/-- `sizeof(Node)`, circular_buffer.hpp:30-46, 95. -/
def nodeSize (sz al : Nat) : Nat := sizeOf (nodeMembers sz al)
/-- `alignof(Node)`, circular_buffer.hpp:91. -/
def nodeAlign (sz al : Nat) : Nat := maxAlign (nodeMembers sz al)
/-- offset of `item_` inside `Node`. [circular_buffer.hpp:45] -/
def itemOffset (al : Nat) : Nat := roundUp 1 al

/-- `size_t`. [arithmetic of circular_buffer.hpp:90-100] -/
def wrap64 (n : Nat) : Nat := n % 2 ^ 64

/-- `element_size_`, circular_buffer.hpp:90-96, in `size_t` arithmetic. -/
def elementSize (sz al padding : Nat) : Nat :=
  let alignment := nodeAlign sz al
  let offset := padding % alignment
  let padding := if offset ≠ 0 then wrap64 (padding + (alignment - offset)) else padding
  wrap64 (nodeSize sz al + padding)

/-- size in bytes of `raw_data_`, circular_buffer.hpp:97 -/
def rawSize (sz al capacity padding : Nat) : Nat := wrap64 (capacity * elementSize sz al padding)

/-- offset of slot `i` inside `raw_data_`, circular_buffer.hpp:100, 150, 188 -/
def slotOffset (sz al padding i : Nat) : Nat := wrap64 (elementSize sz al padding * i)

/-- first byte of the element of slot `i`. [circular_buffer.hpp:33, 37, 45] -/
def itemAt (sz al padding i : Nat) : Nat := slotOffset sz al padding i + itemOffset al

/-- first byte of the message of slot `i`: `message_data_ = (char*)this + sizeof(*this)`, event.hpp:165 -/
def messageAt (sz al padding i : Nat) : Nat := itemAt sz al padding i + sz

end Layout
end Soralog
