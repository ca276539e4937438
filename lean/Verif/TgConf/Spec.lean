import Verif.TgConf.Model
/-! # What the texts of numbers mean, and what a complete entry is -/

namespace Verif.TgConf
open Verif Verif.TgTlm

/-- Character `c` is the digit `d` of base `b`. -/
def Digit (b : Nat) (c : Char) (d : Nat) : Prop :=
  d < b ∧ ("0123456789abcdef".toList[d]? = some c ∨ "0123456789ABCDEF".toList[d]? = some c)

/-- The digits `t`, most significant first, stand for `n` in base `b`. -/
inductive Reads (b : Nat) : List Char → Nat → Prop where
  | one {c : Char} {d : Nat} : Digit b c d → Reads b [c] d
  | more {t : List Char} {n : Nat} {c : Char} {d : Nat} : Reads b t n → Digit b c d → Reads b (t ++ [c]) (n * b + d)

/-- A number as a user writes it: decimal, or hexadecimal after `0x`, with blanks around. -/
def Numeral (s : List Char) (n : Nat) : Prop :=
  ∃ a t b, s = a ++ t ++ b ∧ (∀ c ∈ a, c = ' ' ∨ c = '\t') ∧ (∀ c ∈ b, c = ' ' ∨ c = '\t') ∧
    (Reads 10 t n ∨ ∃ x u, t = '0' :: x :: u ∧ (x = 'x' ∨ x = 'X') ∧ Reads 16 u n)

/-- The kinds of members. -/
inductive Kind where
  | num64
  | num32
  | bool
  | cmd
  | bytes

/-- What is allowed for each: a text is always, but for commands. -/
def Kind.ok : Kind → Json → Prop
  | .num64, j => (∃ n, j = .num n) ∨ ∃ s, j = .str s
  | .num32, j => (∃ n, j = .num n ∧ n < 2 ^ 32) ∨ ∃ s, j = .str s
  | .bool, j => (∃ b, j = .bool b) ∨ ∃ s, j = .str s
  | .cmd, j => (∃ n, j = .num n ∧ n < 2 ^ 32) ∨ ∃ c, j = .str [c] ∧ c ∈ ['W', 'w', 'R', 'r']
  | .bytes, j => ∃ l, j = .arr l ∧ ∀ e ∈ l, (∃ n, e = .num n ∧ n < 2 ^ 32) ∨ ∃ s, e = .str s

/-- Member `k` is there and of kind `κ`. -/
def Has (m : List (String × Json)) (k : String) (κ : Kind) : Prop := ∃ j, member m k = some j ∧ κ.ok j

/-- Every member is there, of a kind allowed; lengths given as numbers agree with the
arrays. -/
structure Complete (m : List (String × Json)) : Prop where
  fields : ∀ p ∈ [("addr", Kind.num64), ("cmd", .cmd), ("data", .bytes), ("length", .num32), ("byte_enable", .bytes),
      ("byte_enable_length", .num32), ("streaming_width", .num32), ("expect", .bytes)], Has m p.1 p.2
  length : ∀ n l, member m "length" = some (.num n) → member m "data" = some (.arr l) → l.length = n
  beLength : ∀ n l, member m "byte_enable_length" = some (.num n) → member m "byte_enable" = some (.arr l) → l.length = n
  sw : ∀ s, member m "streaming_width" = some (.str s) → ∃ t, member m "byte_enable_length" = some (.str t)
  attrs : ∃ e g, member m "ext" = some (.obj e) ∧ member e "gen_attr" = some (.obj g) ∧
    ∀ p ∈ [("enabled", Kind.bool), ("master_id", .num64), ("secure", .bool), ("eop", .bool), ("wrap", .bool),
      ("burst_width", .num32), ("transaction_id", .num32), ("exclusive", .bool), ("locked", .bool), ("bufferable", .bool),
      ("modifiable", .bool), ("read_allocate", .bool), ("write_allocate", .bool), ("qos", .num32), ("region", .num32)], Has g p.1 p.2

end Verif.TgConf
