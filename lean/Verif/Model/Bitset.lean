/-! # Bit sets

Model of `/repo/src/bitset_fixed_size.tpp`, `/repo/src/bitset_variable_size.cpp` and
`/repo/src/popcount.tpp`. -/

namespace Panda

/-- The operations the elimination uses on a bit set type (a template parameter in the C++,
algorithm_fourier_motzkin_elimination.cpp:36-70). The last `Nat` argument is the hint `max`. -/
structure BitsetOps (B : Type) where
  new : Nat → B
  set : B → Nat → B
  merge : B → B → Nat → B
  count : B → Nat → Nat
  contains : B → B → Nat → Bool
  unionContains : B → B → B → Nat → Bool
  unionCount : B → B → Nat → Nat

/-- number of one bits of a word: what `__builtin_popcount` returns (popcount.tpp:18-22) -/
def bitCount (n : BitVec 32) : Nat := (List.range 32).countP (fun i => n.getLsbD i)

/-- the portable fallback (popcount.tpp:24-29); `uint32_t` arithmetic wraps modulo 2^32 -/
def popcountFallback (n : BitVec 32) : BitVec 32 :=
  let n1 := n - ((n >>> 1) &&& 0x55555555#32)
  let n2 := (n1 &&& 0x33333333#32) + ((n1 >>> 2) &&& 0x33333333#32)
  (((n2 + (n2 >>> 4)) &&& 0x0F0F0F0F#32) * 0x01010101#32) >>> 24

/-- number of words looked at: `1 + (max - 1) / 32`
(bitset_fixed_size.tpp:34,49,61,81,94; the same in bitset_variable_size.cpp) -/
def wordsFor (max : Nat) : Nat := 1 + (max - 1) / 32

/-- the data of a bit set: `std::array<uint32_t, Size>` (bitset_fixed_size.h:46) or
`std::vector<uint32_t>` (bitset_variable_size.h:43) -/
abbrev Words := List (BitVec 32)

/-- `data[i]`; in the elimination `i` is always below the size (see `Bitset` proofs) -/
def wordAt (b : Words) (i : Nat) : BitVec 32 := b.getD i 0#32

/-- `set(index)` (bitset_fixed_size.tpp:70-75, bitset_variable_size.cpp:67-72) -/
def bsSet (b : Words) (index : Nat) : Words :=
  b.set (index / 32) (wordAt b (index / 32) ||| (1#32 <<< (index % 32)))

/-- `merge(second, max)` (bitset_fixed_size.tpp:58-67, bitset_variable_size.cpp:55-65) -/
def bsMerge (a b : Words) (max : Nat) : Words :=
  (List.range (wordsFor max)).foldl (fun r i => r.set i (wordAt r i ||| wordAt b i)) a

/-- `count(max)` (bitset_fixed_size.tpp:46-55, bitset_variable_size.cpp:44-53) -/
def bsCount (a : Words) (max : Nat) : Nat :=
  (List.range (wordsFor max)).foldl (fun t i => t + bitCount (wordAt a i)) 0

/-- `contains(second, max)` (bitset_fixed_size.tpp:32-43, bitset_variable_size.cpp:30-42) -/
def bsContains (a b : Words) (max : Nat) : Bool :=
  (List.range (wordsFor max)).all fun i => (wordAt a i &&& wordAt b i) == wordAt b i

/-- `equals(second, max)` (bitset_fixed_size.tpp:24-29, bitset_variable_size.cpp:23-28); not used by the elimination -/
def bsEquals (a b : Words) (max : Nat) : Bool :=
  (List.range (wordsFor max)).all fun i => wordAt a i == wordAt b i

/-- `unionContains(a, b, inner, max)` (bitset_fixed_size.tpp:92-103,
bitset_variable_size.cpp:87-98) -/
def bsUnionContains (a b inner : Words) (max : Nat) : Bool :=
  (List.range (wordsFor max)).all fun i =>
    ((wordAt a i ||| wordAt b i) &&& wordAt inner i) == wordAt inner i

/-- `unionCount(a, b, max)` (bitset_fixed_size.tpp:78-89, bitset_variable_size.cpp:74-85);
the subtraction is on `size_t`, it never wraps because |A ∩ B| ≤ |A| + |B| -/
def bsUnionCount (a b : Words) (max : Nat) : Nat :=
  (List.range (wordsFor max)).foldl (fun t i =>
    t + bitCount (wordAt a i) + bitCount (wordAt b i) - bitCount (wordAt a i &&& wordAt b i)) 0

/-- the operations shared by both classes; only the constructor differs -/
def wordsOps (new : Nat → Words) : BitsetOps Words where
  new := new
  set := bsSet
  merge := bsMerge
  count := bsCount
  contains := bsContains
  unionContains := bsUnionContains
  unionCount := bsUnionCount

/-- `BitsetFixedSize<Size>` (bitset_fixed_size.tpp:16-21): `Size` zero words, whatever the argument -/
def fixedOps (size : Nat) : BitsetOps Words := wordsOps fun _ => List.replicate size 0#32

/-- `BitsetVariableSize` (bitset_variable_size.cpp:16-21): `1 + (bits - 1) / 32` zero words -/
def variableOps : BitsetOps Words := wordsOps fun bits => List.replicate (wordsFor bits) 0#32

end Panda
