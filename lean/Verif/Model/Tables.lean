/-
Generated by transcription from /repo/dpm/detail/x86/transform.hpp (TR): the `switch (n)` tables of
`maskblend`, `maskzero`, `maskone`.  Each row is `(case label, operands)`: for `_mm*_set_*` the operand
list in source order (highest lane first; `true` is the all-ones / sign-bit constant `m`/`mask`, `false`
is 0), for the immediate blends the immediate.  The `default` case is `none`.
-/
namespace Dpm.X86.Tables

/-- TR:22-24 -/
def maskblend4_128_imm : Nat → Option Nat
  | 3 => some 0b1000
  | 2 => some 0b1100
  | 1 => some 0b1110
  | _ => none

/-- TR:31-33 -/
def maskblend4_128 : Nat → Option (List Bool)
  | 3 => some [true, false, false, false]
  | 2 => some [true, true, false, false]
  | 1 => some [true, true, true, false]
  | _ => none

/-- TR:46-48 -/
def maskzero4_128 : Nat → Option (List Bool)
  | 3 => some [false, true, true, true]
  | 2 => some [false, false, true, true]
  | 1 => some [false, false, false, true]
  | _ => none

/-- TR:59-61 -/
def maskone4_128 : Nat → Option (List Bool)
  | 3 => some [true, false, false, false]
  | 2 => some [true, true, false, false]
  | 1 => some [true, true, true, false]
  | _ => none

/-- TR:124-138 -/
def maskblend1_128_sse41 : Nat → Option (List Bool)
  | 15 => some [true, false, false, false, false, false, false, false, false, false, false, false, false, false, false, false]
  | 14 => some [true, true, false, false, false, false, false, false, false, false, false, false, false, false, false, false]
  | 13 => some [true, true, true, false, false, false, false, false, false, false, false, false, false, false, false, false]
  | 12 => some [true, true, true, true, false, false, false, false, false, false, false, false, false, false, false, false]
  | 11 => some [true, true, true, true, true, false, false, false, false, false, false, false, false, false, false, false]
  | 10 => some [true, true, true, true, true, true, false, false, false, false, false, false, false, false, false, false]
  | 9 => some [true, true, true, true, true, true, true, false, false, false, false, false, false, false, false, false]
  | 8 => some [true, true, true, true, true, true, true, true, false, false, false, false, false, false, false, false]
  | 7 => some [true, true, true, true, true, true, true, true, true, false, false, false, false, false, false, false]
  | 6 => some [true, true, true, true, true, true, true, true, true, true, false, false, false, false, false, false]
  | 5 => some [true, true, true, true, true, true, true, true, true, true, true, false, false, false, false, false]
  | 4 => some [true, true, true, true, true, true, true, true, true, true, true, true, false, false, false, false]
  | 3 => some [true, true, true, true, true, true, true, true, true, true, true, true, true, false, false, false]
  | 2 => some [true, true, true, true, true, true, true, true, true, true, true, true, true, true, false, false]
  | 1 => some [true, true, true, true, true, true, true, true, true, true, true, true, true, true, true, false]
  | _ => none

/-- TR:145-159 -/
def maskblend1_128 : Nat → Option (List Bool)
  | 15 => some [true, false, false, false, false, false, false, false, false, false, false, false, false, false, false, false]
  | 14 => some [true, true, false, false, false, false, false, false, false, false, false, false, false, false, false, false]
  | 13 => some [true, true, true, false, false, false, false, false, false, false, false, false, false, false, false, false]
  | 12 => some [true, true, true, true, false, false, false, false, false, false, false, false, false, false, false, false]
  | 11 => some [true, true, true, true, true, false, false, false, false, false, false, false, false, false, false, false]
  | 10 => some [true, true, true, true, true, true, false, false, false, false, false, false, false, false, false, false]
  | 9 => some [true, true, true, true, true, true, true, false, false, false, false, false, false, false, false, false]
  | 8 => some [true, true, true, true, true, true, true, true, false, false, false, false, false, false, false, false]
  | 7 => some [true, true, true, true, true, true, true, true, true, false, false, false, false, false, false, false]
  | 6 => some [true, true, true, true, true, true, true, true, true, true, false, false, false, false, false, false]
  | 5 => some [true, true, true, true, true, true, true, true, true, true, true, false, false, false, false, false]
  | 4 => some [true, true, true, true, true, true, true, true, true, true, true, true, false, false, false, false]
  | 3 => some [true, true, true, true, true, true, true, true, true, true, true, true, true, false, false, false]
  | 2 => some [true, true, true, true, true, true, true, true, true, true, true, true, true, true, false, false]
  | 1 => some [true, true, true, true, true, true, true, true, true, true, true, true, true, true, true, false]
  | _ => none

/-- TR:171-177 -/
def maskblend2_128_imm : Nat → Option Nat
  | 7 => some 0b10000000
  | 6 => some 0b11000000
  | 5 => some 0b11100000
  | 4 => some 0b11110000
  | 3 => some 0b11111000
  | 2 => some 0b11111100
  | 1 => some 0b11111110
  | _ => none

/-- TR:184-190 -/
def maskblend2_128 : Nat → Option (List Bool)
  | 7 => some [true, false, false, false, false, false, false, false]
  | 6 => some [true, true, false, false, false, false, false, false]
  | 5 => some [true, true, true, false, false, false, false, false]
  | 4 => some [true, true, true, true, false, false, false, false]
  | 3 => some [true, true, true, true, true, false, false, false]
  | 2 => some [true, true, true, true, true, true, false, false]
  | 1 => some [true, true, true, true, true, true, true, false]
  | _ => none

/-- TR:219-233 -/
def maskzero1_128 : Nat → Option (List Bool)
  | 15 => some [false, true, true, true, true, true, true, true, true, true, true, true, true, true, true, true]
  | 14 => some [false, false, true, true, true, true, true, true, true, true, true, true, true, true, true, true]
  | 13 => some [false, false, false, true, true, true, true, true, true, true, true, true, true, true, true, true]
  | 12 => some [false, false, false, false, true, true, true, true, true, true, true, true, true, true, true, true]
  | 11 => some [false, false, false, false, false, true, true, true, true, true, true, true, true, true, true, true]
  | 10 => some [false, false, false, false, false, false, true, true, true, true, true, true, true, true, true, true]
  | 9 => some [false, false, false, false, false, false, false, true, true, true, true, true, true, true, true, true]
  | 8 => some [false, false, false, false, false, false, false, false, true, true, true, true, true, true, true, true]
  | 7 => some [false, false, false, false, false, false, false, false, false, true, true, true, true, true, true, true]
  | 6 => some [false, false, false, false, false, false, false, false, false, false, true, true, true, true, true, true]
  | 5 => some [false, false, false, false, false, false, false, false, false, false, false, true, true, true, true, true]
  | 4 => some [false, false, false, false, false, false, false, false, false, false, false, false, true, true, true, true]
  | 3 => some [false, false, false, false, false, false, false, false, false, false, false, false, false, true, true, true]
  | 2 => some [false, false, false, false, false, false, false, false, false, false, false, false, false, false, true, true]
  | 1 => some [false, false, false, false, false, false, false, false, false, false, false, false, false, false, false, true]
  | _ => none

/-- TR:243-249 -/
def maskzero2_128 : Nat → Option (List Bool)
  | 7 => some [false, true, true, true, true, true, true, true]
  | 6 => some [false, false, true, true, true, true, true, true]
  | 5 => some [false, false, false, true, true, true, true, true]
  | 4 => some [false, false, false, false, true, true, true, true]
  | 3 => some [false, false, false, false, false, true, true, true]
  | 2 => some [false, false, false, false, false, false, true, true]
  | 1 => some [false, false, false, false, false, false, false, true]
  | _ => none

/-- TR:270-284 -/
def maskone1_128 : Nat → Option (List Bool)
  | 15 => some [true, false, false, false, false, false, false, false, false, false, false, false, false, false, false, false]
  | 14 => some [true, true, false, false, false, false, false, false, false, false, false, false, false, false, false, false]
  | 13 => some [true, true, true, false, false, false, false, false, false, false, false, false, false, false, false, false]
  | 12 => some [true, true, true, true, false, false, false, false, false, false, false, false, false, false, false, false]
  | 11 => some [true, true, true, true, true, false, false, false, false, false, false, false, false, false, false, false]
  | 10 => some [true, true, true, true, true, true, false, false, false, false, false, false, false, false, false, false]
  | 9 => some [true, true, true, true, true, true, true, false, false, false, false, false, false, false, false, false]
  | 8 => some [true, true, true, true, true, true, true, true, false, false, false, false, false, false, false, false]
  | 7 => some [true, true, true, true, true, true, true, true, true, false, false, false, false, false, false, false]
  | 6 => some [true, true, true, true, true, true, true, true, true, true, false, false, false, false, false, false]
  | 5 => some [true, true, true, true, true, true, true, true, true, true, true, false, false, false, false, false]
  | 4 => some [true, true, true, true, true, true, true, true, true, true, true, true, false, false, false, false]
  | 3 => some [true, true, true, true, true, true, true, true, true, true, true, true, true, false, false, false]
  | 2 => some [true, true, true, true, true, true, true, true, true, true, true, true, true, true, false, false]
  | 1 => some [true, true, true, true, true, true, true, true, true, true, true, true, true, true, true, false]
  | _ => none

/-- TR:294-300 -/
def maskone2_128 : Nat → Option (List Bool)
  | 7 => some [true, false, false, false, false, false, false, false]
  | 6 => some [true, true, false, false, false, false, false, false]
  | 5 => some [true, true, true, false, false, false, false, false]
  | 4 => some [true, true, true, true, false, false, false, false]
  | 3 => some [true, true, true, true, true, false, false, false]
  | 2 => some [true, true, true, true, true, true, false, false]
  | 1 => some [true, true, true, true, true, true, true, false]
  | _ => none

/-- TR:447-453 -/
def maskblend4_256_imm : Nat → Option Nat
  | 7 => some 0b10000000
  | 6 => some 0b11000000
  | 5 => some 0b11100000
  | 4 => some 0b11110000
  | 3 => some 0b11111000
  | 2 => some 0b11111100
  | 1 => some 0b11111110
  | _ => none

/-- TR:464-466 -/
def maskblend8_256_imm : Nat → Option Nat
  | 3 => some 0b1000
  | 2 => some 0b1100
  | 1 => some 0b1110
  | _ => none

/-- TR:511-541 -/
def maskblend1_256 : Nat → Option (List Bool)
  | 31 => some [true, false, false, false, false, false, false, false, false, false, false, false, false, false, false, false, false, false, false, false, false, false, false, false, false, false, false, false, false, false, false, false]
  | 30 => some [true, true, false, false, false, false, false, false, false, false, false, false, false, false, false, false, false, false, false, false, false, false, false, false, false, false, false, false, false, false, false, false]
  | 29 => some [true, true, true, false, false, false, false, false, false, false, false, false, false, false, false, false, false, false, false, false, false, false, false, false, false, false, false, false, false, false, false, false]
  | 28 => some [true, true, true, true, false, false, false, false, false, false, false, false, false, false, false, false, false, false, false, false, false, false, false, false, false, false, false, false, false, false, false, false]
  | 27 => some [true, true, true, true, true, false, false, false, false, false, false, false, false, false, false, false, false, false, false, false, false, false, false, false, false, false, false, false, false, false, false, false]
  | 26 => some [true, true, true, true, true, true, false, false, false, false, false, false, false, false, false, false, false, false, false, false, false, false, false, false, false, false, false, false, false, false, false, false]
  | 25 => some [true, true, true, true, true, true, true, false, false, false, false, false, false, false, false, false, false, false, false, false, false, false, false, false, false, false, false, false, false, false, false, false]
  | 24 => some [true, true, true, true, true, true, true, true, false, false, false, false, false, false, false, false, false, false, false, false, false, false, false, false, false, false, false, false, false, false, false, false]
  | 23 => some [true, true, true, true, true, true, true, true, true, false, false, false, false, false, false, false, false, false, false, false, false, false, false, false, false, false, false, false, false, false, false, false]
  | 22 => some [true, true, true, true, true, true, true, true, true, true, false, false, false, false, false, false, false, false, false, false, false, false, false, false, false, false, false, false, false, false, false, false]
  | 21 => some [true, true, true, true, true, true, true, true, true, true, true, false, false, false, false, false, false, false, false, false, false, false, false, false, false, false, false, false, false, false, false, false]
  | 20 => some [true, true, true, true, true, true, true, true, true, true, true, true, false, false, false, false, false, false, false, false, false, false, false, false, false, false, false, false, false, false, false, false]
  | 19 => some [true, true, true, true, true, true, true, true, true, true, true, true, true, false, false, false, false, false, false, false, false, false, false, false, false, false, false, false, false, false, false, false]
  | 18 => some [true, true, true, true, true, true, true, true, true, true, true, true, true, true, false, false, false, false, false, false, false, false, false, false, false, false, false, false, false, false, false, false]
  | 17 => some [true, true, true, true, true, true, true, true, true, true, true, true, true, true, true, false, false, false, false, false, false, false, false, false, false, false, false, false, false, false, false, false]
  | 16 => some [true, true, true, true, true, true, true, true, true, true, true, true, true, true, true, true, false, false, false, false, false, false, false, false, false, false, false, false, false, false, false, false]
  | 15 => some [true, true, true, true, true, true, true, true, true, true, true, true, true, true, true, true, true, false, false, false, false, false, false, false, false, false, false, false, false, false, false, false]
  | 14 => some [true, true, true, true, true, true, true, true, true, true, true, true, true, true, true, true, true, true, false, false, false, false, false, false, false, false, false, false, false, false, false, false]
  | 13 => some [true, true, true, true, true, true, true, true, true, true, true, true, true, true, true, true, true, true, true, false, false, false, false, false, false, false, false, false, false, false, false, false]
  | 12 => some [true, true, true, true, true, true, true, true, true, true, true, true, true, true, true, true, true, true, true, true, false, false, false, false, false, false, false, false, false, false, false, false]
  | 11 => some [true, true, true, true, true, true, true, true, true, true, true, true, true, true, true, true, true, true, true, true, true, false, false, false, false, false, false, false, false, false, false, false]
  | 10 => some [true, true, true, true, true, true, true, true, true, true, true, true, true, true, true, true, true, true, true, true, true, true, false, false, false, false, false, false, false, false, false, false]
  | 9 => some [true, true, true, true, true, true, true, true, true, true, true, true, true, true, true, true, true, true, true, true, true, true, true, false, false, false, false, false, false, false, false, false]
  | 8 => some [true, true, true, true, true, true, true, true, true, true, true, true, true, true, true, true, true, true, true, true, true, true, true, true, false, false, false, false, false, false, false, false]
  | 7 => some [true, true, true, true, true, true, true, true, true, true, true, true, true, true, true, true, true, true, true, true, true, true, true, true, true, false, false, false, false, false, false, false]
  | 6 => some [true, true, true, true, true, true, true, true, true, true, true, true, true, true, true, true, true, true, true, true, true, true, true, true, true, true, false, false, false, false, false, false]
  | 5 => some [true, true, true, true, true, true, true, true, true, true, true, true, true, true, true, true, true, true, true, true, true, true, true, true, true, true, true, false, false, false, false, false]
  | 4 => some [true, true, true, true, true, true, true, true, true, true, true, true, true, true, true, true, true, true, true, true, true, true, true, true, true, true, true, true, false, false, false, false]
  | 3 => some [true, true, true, true, true, true, true, true, true, true, true, true, true, true, true, true, true, true, true, true, true, true, true, true, true, true, true, true, true, false, false, false]
  | 2 => some [true, true, true, true, true, true, true, true, true, true, true, true, true, true, true, true, true, true, true, true, true, true, true, true, true, true, true, true, true, true, false, false]
  | 1 => some [true, true, true, true, true, true, true, true, true, true, true, true, true, true, true, true, true, true, true, true, true, true, true, true, true, true, true, true, true, true, true, false]
  | _ => none

/-- TR:550-564 -/
def maskblend2_256 : Nat → Option (List Bool)
  | 15 => some [true, true, false, false, false, false, false, false, false, false, false, false, false, false, false, false, false, false, false, false, false, false, false, false, false, false, false, false, false, false, false, false]
  | 14 => some [true, true, true, true, false, false, false, false, false, false, false, false, false, false, false, false, false, false, false, false, false, false, false, false, false, false, false, false, false, false, false, false]
  | 13 => some [true, true, true, true, true, true, false, false, false, false, false, false, false, false, false, false, false, false, false, false, false, false, false, false, false, false, false, false, false, false, false, false]
  | 12 => some [true, true, true, true, true, true, true, true, false, false, false, false, false, false, false, false, false, false, false, false, false, false, false, false, false, false, false, false, false, false, false, false]
  | 11 => some [true, true, true, true, true, true, true, true, true, true, false, false, false, false, false, false, false, false, false, false, false, false, false, false, false, false, false, false, false, false, false, false]
  | 10 => some [true, true, true, true, true, true, true, true, true, true, true, true, false, false, false, false, false, false, false, false, false, false, false, false, false, false, false, false, false, false, false, false]
  | 9 => some [true, true, true, true, true, true, true, true, true, true, true, true, true, true, false, false, false, false, false, false, false, false, false, false, false, false, false, false, false, false, false, false]
  | 8 => some [true, true, true, true, true, true, true, true, true, true, true, true, true, true, true, true, false, false, false, false, false, false, false, false, false, false, false, false, false, false, false, false]
  | 7 => some [true, true, true, true, true, true, true, true, true, true, true, true, true, true, true, true, true, true, false, false, false, false, false, false, false, false, false, false, false, false, false, false]
  | 6 => some [true, true, true, true, true, true, true, true, true, true, true, true, true, true, true, true, true, true, true, true, false, false, false, false, false, false, false, false, false, false, false, false]
  | 5 => some [true, true, true, true, true, true, true, true, true, true, true, true, true, true, true, true, true, true, true, true, true, true, false, false, false, false, false, false, false, false, false, false]
  | 4 => some [true, true, true, true, true, true, true, true, true, true, true, true, true, true, true, true, true, true, true, true, true, true, true, true, false, false, false, false, false, false, false, false]
  | 3 => some [true, true, true, true, true, true, true, true, true, true, true, true, true, true, true, true, true, true, true, true, true, true, true, true, true, true, false, false, false, false, false, false]
  | 2 => some [true, true, true, true, true, true, true, true, true, true, true, true, true, true, true, true, true, true, true, true, true, true, true, true, true, true, true, true, false, false, false, false]
  | 1 => some [true, true, true, true, true, true, true, true, true, true, true, true, true, true, true, true, true, true, true, true, true, true, true, true, true, true, true, true, true, true, false, false]
  | _ => none

end Dpm.X86.Tables
