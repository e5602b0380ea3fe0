import Verif.Model.Str

/-!
# Non-negative IEEE-754 binary64 values

`dbml-rs` only creates `f64`s by `str::parse::<f64>` on texts of the form `digits "." digits*`
(`/repo/src/parser/mod.rs:838`), compares them with `==` (`/repo/src/analyzer/indexer.rs:396`, inside
`Vec<Value>`), and prints them with `{}` (`/repo/src/ast/unit.rs:92`). NaN and negative numbers never
occur. `F64` models exactly that fragment: correctly rounded parsing (round half to even),
equality of the canonical representation, and shortest round-trip display without exponent.
-/

namespace Dbml

/-- A non-negative binary64: `fin m e` is `m * 2^e` in canonical form
(`m < 2^53`, `-1074 ≤ e`, and `2^52 ≤ m` unless `e = -1074`), or `+inf`.
`/repo/src/parser/mod.rs:838` (`parse::<f64>`). -/
inductive F64 where
  | fin (m : Nat) (e : Int)
  | inf
deriving DecidableEq, Repr, Inhabited

namespace F64

/-- Round-half-to-even quotient.
`/repo/src/parser/mod.rs:838` (`parse::<f64>`). -/
def roundDiv (n d : Nat) : Nat :=
  let q := n / d
  let r := n % d
  if 2 * r < d then q else if d < 2 * r then q + 1 else if q % 2 = 0 then q else q + 1

/-- `roundDiv (num / den / 2^e)`.
`/repo/src/parser/mod.rs:838` (`parse::<f64>`). -/
def mantAt (num den : Nat) (e : Int) : Nat :=
  if 0 ≤ e then roundDiv num (den * 2 ^ e.toNat) else roundDiv (num * 2 ^ (-e).toNat) den

/-- The binary64 nearest to `num / den` (ties to even), `den > 0`.
`/repo/src/parser/mod.rs:838` (`parse::<f64>`). -/
def ofRat (num den : Nat) : F64 :=
  if num = 0 then .fin 0 (-1074) else
    let e0 : Int := (Nat.log2 num : Int) - (Nat.log2 den : Int) - 52
    -- `num/den` lies in `[2^(lg-1), 2^(lg+1))`; pick `e` with a 53-bit quotient, at least `-1074`.
    let small : Bool :=
      if 0 ≤ e0 then decide (num < 2 ^ 52 * (den * 2 ^ e0.toNat))
      else decide (num * 2 ^ (-e0).toNat < 2 ^ 52 * den)
    let e1 : Int := if small then e0 - 1 else e0
    let e : Int := if e1 < -1074 then -1074 else e1
    let m := mantAt num den e
    let (m, e) := if m = 2 ^ 53 then (2 ^ 52, e + 1) else (m, e)
    if 971 < e then .inf else .fin m e

/-- Value of a digit sequence in base ten (non-digits count by their offset from `'0'`; the
grammar only ever passes digits).
`/repo/src/parser/mod.rs:838` (`parse::<f64>`). -/
def digitsVal (ds : Str) : Nat := ds.foldl (fun n c => n * 10 + (c.toNat - '0'.toNat)) 0

/-- `str::parse::<f64>` on `digits "." digits*` (always succeeds on such texts).
`/repo/src/parser/mod.rs:838` (`parse::<f64>`). -/
def parse (s : Str) : F64 :=
  let ip := s.takeWhile (· ≠ '.')
  let fp := (s.dropWhile (· ≠ '.')).drop 1
  ofRat (digitsVal (ip ++ fp)) (10 ^ fp.length)

/-- Decimal digits of a natural number.
`/repo/src/ast/unit.rs:92` (`format!("{v}")`). -/
def natDigits (n : Nat) : Str := Nat.toDigits 10 n

/-- `d * 10^x` written without exponent.
`/repo/src/ast/unit.rs:92` (`format!("{v}")`). -/
def plain (d : Nat) (x : Int) : Str :=
  if 0 ≤ x then natDigits (d * 10 ^ x.toNat)
  else
    let k := (-x).toNat
    let ds := natDigits d
    let ds := List.replicate (k + 1 - ds.length) '0' ++ ds
    let ip := ds.take (ds.length - k)
    let fp := ((ds.drop (ds.length - k)).reverse.dropWhile (· = '0')).reverse
    if fp.isEmpty then ip else ip ++ ['.'] ++ fp

/-- `num/den` scaled by `10^(-x)`, rounded down.
`/repo/src/ast/unit.rs:92` (`format!("{v}")`). -/
def scaled (num den : Nat) (x : Int) : Nat :=
  if 0 ≤ x then num / (den * 10 ^ x.toNat) else (num * 10 ^ (-x).toNat) / den

/-- The binary64 nearest to `d * 10^x`.
`/repo/src/ast/unit.rs:92` (`format!("{v}")`). -/
def ofScaled (d : Nat) (x : Int) : F64 :=
  if 0 ≤ x then ofRat (d * 10 ^ x.toNat) 1 else ofRat d (10 ^ (-x).toNat)

/-- The shortest decimal `d * 10^x` (with `n`, `n+1`, ... significant digits; `k` is the position of
the leading digit of `num/den`) that reads back as `v`, nearest to `num/den` among two candidates.
`/repo/src/ast/unit.rs:92` (`format!("{v}")`). -/
def shortest (v : F64) (num den : Nat) (k : Int) : Nat → Nat → Nat × Int
  | 0, n => (scaled num den (k - n), k - n)
  | fuel + 1, n =>
    let x := k - n
    let lo := scaled num den x
    let okLo := ofScaled lo x = v
    let okHi := ofScaled (lo + 1) x = v
    -- distance test: is `num/den` closer to `lo` than to `lo + 1` (in units of `10^x`)?
    let twice := if 0 ≤ x then 2 * num / (den * 10 ^ x.toNat) else (2 * num * 10 ^ (-x).toNat) / den
    let preferLo := twice < 2 * lo + 1
    if okLo ∧ (preferLo ∨ ¬ okHi) then (lo, x)
    else if okHi then (lo + 1, x)
    else shortest v num den k fuel (n + 1)

/-- `<f64 as Display>::fmt` (`format!("{v}")`).
`/repo/src/ast/unit.rs:92` (`format!("{v}")`). -/
def display : F64 → Str
  | .inf => ['i', 'n', 'f']
  | .fin m e =>
    if m = 0 then ['0'] else
      let (num, den) := if 0 ≤ e then (m * 2 ^ e.toNat, 1) else (m, 2 ^ (-e).toNat)
      -- `k`: number of digits before the decimal point (may be ≤ 0)
      let k : Int :=
        if den ≤ num then ((natDigits (num / den)).length : Int)
        else 1 - ((natDigits ((den - 1) / num)).length : Int)
      let (d, x) := shortest (.fin m e) num den k 17 1
      plain d x

end F64
end Dbml
