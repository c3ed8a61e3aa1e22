import Verif.Model.SafeInteger
import Verif.Model.BigInteger

/-! # Conversions between integer types

Model of `/repo/src/cast.cpp`: `cast` converts entry by entry with `Integer(element)`.  The program reads
matrices of `int`, casts them to the selected type (input.tpp:9-27) and casts every printed row back to `int`
(algorithm_row_operations.cpp:24-28, 44-48, 107-111). -/

namespace Panda

/-- `Row<int> cast(const Row<Integer>&)` (cast.cpp:27-37): conversion of each element, in order -/
def castRow {α β : Type} (conv : α → Outcome β) : List α → Outcome (List β)
  | [] => .ok []
  | a :: as => (conv a).bind fun b => (castRow conv as).bind fun bs => .ok (b :: bs)

/-- `Matrix<int> cast(const Matrix<Integer>&)` (cast.cpp:15-25) -/
def castMatrix {α β : Type} (conv : α → Outcome β) (m : List (List α)) : Outcome (List (List β)) :=
  castRow (castRow conv) m

/-- conversion of an integer to a signed machine type with `n` bits (modulo `2^n`, which is what every supported
compiler does) -/
def narrow (n : Nat) (v : Int) : Int := (v + 2 ^ (n - 1)) % 2 ^ n - 2 ^ (n - 1)

/-- `int(int64_t)`: no check -/
def int64ToInt (v : Int) : Outcome Int := .ok (narrow 32 v)
/-- `int(int16_t)`, `int(int32_t)` -/
def int16ToInt (v : Int) : Outcome Int := .ok (narrow 32 v)
/-- `int16_t(int)`: no check -/
def intToInt16 (v : Int) : Outcome Int := .ok (narrow 16 v)

end Panda
