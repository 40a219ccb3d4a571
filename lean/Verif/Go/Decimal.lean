import Verif.Go.FloatText
import Verif.Go.Strconv
/-!
# Floating point numbers as decimal text (strconv)

`strconv.FormatFloat` with format `'g'` and a precision, and `strconv.ParseFloat`, in exact arithmetic. A finite
number is a natural multiple of the smallest positive number `2 ^ -unit`. Hexadecimal numbers and underscores, which
`ParseFloat` accepts, are not modelled; the encoder does not write them.
-/
namespace Go

/-- The nearest natural number to `a / b`, and the even one of two. -/
def roundEven (a b : Nat) : Nat :=
  if 2 * (a % b) < b then a / b
  else if b < 2 * (a % b) then a / b + 1
  else if a / b % 2 = 0 then a / b else a / b + 1

/-- A binary format: the number of bits of the mantissa and of the exponent; the smallest positive number is
`2 ^ -unit`. -/
structure FloatFmt where
  mb : Nat
  eb : Nat
  unit : Nat

/-- `float32`. -/
def fmt32 : FloatFmt := ⟨23, 8, 149⟩
/-- `float64`. -/
def fmt64 : FloatFmt := ⟨52, 11, 1074⟩

/-- The bits of infinity. -/
def FloatFmt.inf (φ : FloatFmt) : Nat := (2 ^ φ.eb - 1) * 2 ^ φ.mb

/-- The number with the given bits (without the sign), as a multiple of `2 ^ -unit`. -/
def FloatFmt.value (φ : FloatFmt) (bits : Nat) : Nat :=
  if bits / 2 ^ φ.mb = 0 then bits % 2 ^ φ.mb
  else (2 ^ φ.mb + bits % 2 ^ φ.mb) * 2 ^ (bits / 2 ^ φ.mb - 1)

/-- The bits of the number nearest to `a / b * 2 ^ -unit`, of two the one with an even mantissa. The result is at least
`inf` if the number is too large. -/
def FloatFmt.nearest (φ : FloatFmt) (a b : Nat) : Nat :=
  let s := (a / b).log2 - φ.mb
  s * 2 ^ φ.mb + roundEven a (b * 2 ^ s)

/-! ## Formatting -/

/-- One less than the number of decimal digits; the first argument bounds it. -/
def log10Aux : Nat → Nat → Nat
  | 0, _ => 0
  | fuel + 1, n => if n < 10 then 0 else log10Aux fuel (n / 10) + 1

/-- One less than the number of decimal digits. -/
def log10 (n : Nat) : Nat := log10Aux (n.log2 + 1) n

/-- The digits of the number `a * 10 ^ -unit` rounded to `p` digits without trailing zeros, and the position of the
decimal point (`ryuFtoaFixed32`, `formatDecimal` in strconv/ftoaryu.go). -/
def roundDigits (a p : Nat) (unit : Nat) : Bytes × Int :=
  let j := log10 a
  let ds := formatUint (roundEven a (10 ^ (j + 1 - p)))
  ((ds.reverse.dropWhile fun c => decide (c = 48#8)).reverse, (j : Int) + 1 - unit + (ds.length - p))

/-- The exponent has at least two digits. -/
def expText (e : Nat) : Bytes := if e < 10 then 48#8 :: formatUint e else formatUint e

/-- `fmtE` with the digits there are (strconv/ftoa.go). -/
def layoutE (digs : Bytes) (dp : Int) : Bytes :=
  (match digs with
    | [] => []
    | [c] => [c]
    | c :: cs => c :: 46#8 :: cs) ++
  101#8 :: (if dp - 1 < 0 then 45#8 else 43#8) :: expText (dp - 1).natAbs

/-- `fmtF` with the digits there are (strconv/ftoa.go). -/
def layoutF (digs : Bytes) (dp : Int) : Bytes :=
  (if 0 < dp then digs.take dp.toNat ++ List.replicate (dp.toNat - digs.length) 48#8 else [48#8]) ++
  (if dp < digs.length then 46#8 :: (List.replicate (-dp).toNat 48#8 ++ digs.drop dp.toNat) else [])

/-- `%g` (`formatDigits` in strconv/ftoa.go). -/
def layoutG (p : Nat) (digs : Bytes) (dp : Int) : Bytes :=
  let eprec : Int := if digs.length < p ∧ dp ≤ digs.length then digs.length else p
  if dp - 1 < -4 ∨ eprec ≤ dp - 1 then layoutE digs dp else layoutF digs dp

/-- `FormatFloat(f, 'g', p, size)` for the number with the given sign and bits (strconv/ftoa.go). -/
def FloatFmt.format (φ : FloatFmt) (p : Nat) (neg : Bool) (bits : Nat) : Bytes :=
  if φ.inf < bits then str "NaN"
  else if bits = φ.inf then (if neg then str "-Inf" else str "+Inf")
  else (if neg then [45#8] else []) ++
    (if bits = 0 then [48#8]
    else
      let d := roundDigits (φ.value bits * 5 ^ φ.unit) p φ.unit
      layoutG p d.1 d.2)

/-! ## Parsing -/

/-- A decimal digit. -/
def isDigit (c : Byte) : Bool := decide (48 ≤ c.toNat) && decide (c.toNat ≤ 57)

/-- The number with the given digits. -/
def natOf (s : Bytes) : Nat := s.foldl (fun n c => 10 * n + (c.toNat - 48)) 0

/-- The exponent with the given digits; it stops growing at 10000. -/
def expOf (s : Bytes) : Nat := s.foldl (fun n c => if n < 10000 then 10 * n + (c.toNat - 48) else n) 0

/-- A sign. -/
def splitSign : Bytes → Bool × Bytes
  | 43#8 :: t => (false, t)
  | 45#8 :: t => (true, t)
  | t => (false, t)

/-- The exponent that ends a number. -/
def parseExp : Bytes → Option Int
  | [] => some 0
  | c :: t =>
    if c = 101#8 ∨ c = 69#8 then
      let r := splitSign t
      if r.2 ≠ [] ∧ r.2.all isDigit = true then some (if r.1 then -(expOf r.2 : Int) else (expOf r.2 : Int)) else none
    else none

/-- The point and the digits after it, and what follows. -/
def splitPoint : Bytes → Bytes × Bytes
  | 46#8 :: t => (t.takeWhile isDigit, t.dropWhile isDigit)
  | t => ([], t)

/-- `readFloat` (strconv/atof.go) after the sign: the digits and the exponent. -/
def parseDecimal (s : Bytes) : Option (Nat × Int) :=
  let ip := s.takeWhile isDigit
  let r := splitPoint (s.dropWhile isDigit)
  if ip = [] ∧ r.1 = [] then none else (parseExp r.2).map fun e => (natOf (ip ++ r.1), e - r.1.length)

/-- The number nearest to `m * 10 ^ e`. -/
def FloatFmt.ofDecimal (φ : FloatFmt) (m : Nat) (e : Int) : Nat :=
  if 0 ≤ e then φ.nearest (m * 10 ^ e.toNat * 2 ^ φ.unit) 1 else φ.nearest (m * 2 ^ φ.unit) (10 ^ (-e).toNat)

/-- Lower case. -/
def lowerCase (s : Bytes) : Bytes := s.map fun c => if 65 ≤ c.toNat ∧ c.toNat ≤ 90 then c + 32#8 else c

/-- `ParseFloat(s, size)` (strconv/atof.go): the sign and the bits; `none` is an error. -/
def FloatFmt.parse (φ : FloatFmt) (nan : Nat) (s : Bytes) : Option (Bool × Nat) :=
  let r := splitSign s
  if lowerCase s = str "nan" then some (false, nan)
  else if lowerCase r.2 = str "inf" ∨ lowerCase r.2 = str "infinity" then some (r.1, φ.inf)
  else
    match parseDecimal r.2 with
    | none => none
    | some (m, e) => if φ.inf ≤ φ.ofDecimal m e then none else some (r.1, φ.ofDecimal m e)

/-- The functions of the Go library. -/
def goFloat : FloatText where
  format32 p f := fmt32.format p (decide (2 ^ 31 ≤ f.toNat)) (f.toNat % 2 ^ 31)
  format64 p f := fmt64.format p (decide (2 ^ 63 ≤ f.toNat)) (f.toNat % 2 ^ 63)
  parse32 s := (fmt32.parse 0x7fc00000 s).map fun r => BitVec.ofNat 32 ((if r.1 then 2 ^ 31 else 0) + r.2)
  parse64 s := (fmt64.parse 0x7ff8000000000001 s).map fun r => BitVec.ofNat 64 ((if r.1 then 2 ^ 63 else 0) + r.2)
  frac255 n := BitVec.ofNat 32 (fmt32.nearest (n.toNat * 2 ^ fmt32.unit) 255)

end Go
