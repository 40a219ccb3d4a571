import Verif.Go.Decimal
/-!
# The shortest text of a floating point number (strconv)

`strconv.FormatFloat` with the precision -1: the fewest digits that are read back as the number, and of these the nearest to
it. In exact arithmetic, as in Go/Decimal.lean.
-/
namespace Go

/-- The digits of `m`, which stands for `m * 10 ^ (j + 1 - p - unit)`, without trailing zeros, and the position of the decimal
point. -/
def pointDigits (m j p unit : Nat) : Bytes × Int :=
  (((formatUint m).reverse.dropWhile fun c => decide (c = 48#8)).reverse, (j : Int) + 1 - unit + ((formatUint m).length - p))

/-- The two decimals with `p` digits next to `a`, the nearer one first (there is no choice if `a` is in the middle, which does not
happen for the numbers of a binary format and decimals that are read back). -/
def nextDecimals (a p : Nat) : Nat × Nat :=
  let near := roundEven a (10 ^ (log10 a + 1 - p))
  let low := a / 10 ^ (log10 a + 1 - p)
  (near, if near = low then low + 1 else low)

/-- The search for the number of digits, from `p` on: the first one for which one of the two decimals is read as `bits`
(`roundShortest` in strconv/ftoa.go and `ryuFtoaShortest` in strconv/ftoaryu.go have the same result). The first argument bounds
the number of attempts; then there are enough digits. -/
def FloatFmt.shortFrom (φ : FloatFmt) (bits a : Nat) : Nat → Nat → Bytes × Int
  | 0, p => pointDigits (nextDecimals a p).1 (log10 a) p φ.unit
  | fuel + 1, p =>
    if φ.ofDecimal (nextDecimals a p).1 ((log10 a : Int) + 1 - p - φ.unit) = bits then
      pointDigits (nextDecimals a p).1 (log10 a) p φ.unit
    else if φ.ofDecimal (nextDecimals a p).2 ((log10 a : Int) + 1 - p - φ.unit) = bits then
      pointDigits (nextDecimals a p).2 (log10 a) p φ.unit
    else shortFrom φ bits a fuel (p + 1)

/-- `%g` with the shortest digits (`formatDigits` in strconv/ftoa.go). -/
def layoutShortG (digs : Bytes) (dp : Int) : Bytes :=
  if dp - 1 < -4 ∨ 6 ≤ dp - 1 then layoutE digs dp else layoutF digs dp

/-- `FormatFloat(f, fmt, -1, size)` for the number with the given sign and bits, with the layout of `fmt` (strconv/ftoa.go);
`enough` is a number of digits that is enough for all numbers. -/
def FloatFmt.short (φ : FloatFmt) (enough : Nat) (layout : Bytes → Int → Bytes) (neg : Bool) (bits : Nat) : Bytes :=
  if φ.inf < bits then str "NaN"
  else if bits = φ.inf then (if neg then str "-Inf" else str "+Inf")
  else (if neg then [45#8] else []) ++
    (if bits = 0 then [48#8]
    else
      let d := φ.shortFrom bits (φ.value bits * 5 ^ φ.unit) (enough - 1) 1
      layout d.1 d.2)

/-- `FormatFloat(float64(f), fmt, -1, 32)`. -/
def short32 (layout : Bytes → Int → Bytes) (f : F32) : Bytes := fmt32.short 9 layout (decide (2 ^ 31 ≤ f.toNat)) (f.toNat % 2 ^ 31)

/-- `FormatFloat(f, fmt, -1, 64)`. -/
def short64 (layout : Bytes → Int → Bytes) (f : F64) : Bytes := fmt64.short 18 layout (decide (2 ^ 63 ≤ f.toNat)) (f.toNat % 2 ^ 63)

end Go
