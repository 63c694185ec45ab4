import Verif.Model.Basic
/-!
# IEEE-754 binary64

`f64` is modelled exactly: a finite value is a sign and the natural number
`|x| * 2^1074`; every finite `f64` has this form. NaNs keep sign and payload.
Operations follow the Rust reference / IEEE-754: round-half-away `round`,
`floor`, `ceil`, saturating `as` casts, round-to-nearest-even conversion from integers.
The text forms (`Display for f64` of std, `fast_float::parse`) are modelled from their
documentation; they are part of the trusted base.
-/

namespace KS

/-- The type `f64`. -/
inductive F64 where
  | nan (neg : Bool) (payload : Nat)
  | inf (neg : Bool)
  | fin (neg : Bool) (mag : Nat)
deriving DecidableEq, Repr

namespace F64

/-- `2^1074`: the reciprocal of the smallest positive `f64`. -/
def scale : Nat := 2 ^ 1074

/-- One more than the largest finite magnitude, scaled: `2^1024 * 2^1074`. -/
def magLimit : Nat := 2 ^ 2098

/-- Which scaled magnitudes are `f64` values: at most 53 significant bits, below `2^1024`. -/
def RepMag (m : Nat) : Prop := m < magLimit ∧ 2 ^ (m.log2 - 52) ∣ m

instance (m : Nat) : Decidable (RepMag m) := by unfold RepMag; infer_instance

/-- Well-formed bit patterns. -/
def WF : F64 → Prop
  | .nan _ p => 1 ≤ p ∧ p < 2 ^ 52
  | .inf _ => True
  | .fin _ m => RepMag m

instance : (x : F64) → Decidable (WF x)
  | .nan _ _ => by unfold WF; infer_instance
  | .inf _ => by unfold WF; infer_instance
  | .fin _ _ => by unfold WF; infer_instance

/-- `f64::is_nan` -/
def isNan : F64 → Bool
  | .nan _ _ => true
  | _ => false

/-- `f64::is_infinite` -/
def isInf : F64 → Bool
  | .inf _ => true
  | _ => false

/-- `f64::is_finite` -/
def isFinite : F64 → Bool
  | .fin _ _ => true
  | _ => false

/-- `f64::is_sign_negative` (looks at the sign bit, also of NaNs). -/
def signNeg : F64 → Bool
  | .nan s _ => s
  | .inf s => s
  | .fin s _ => s

/-- Signed scaled value of a finite float. -/
def sval (neg : Bool) (m : Nat) : Int := if neg then - (m : Int) else (m : Int)

/-- `f64::partial_cmp`. -/
def partialCmp : F64 → F64 → Option Ordering
  | .nan _ _, _ => none
  | _, .nan _ _ => none
  | .inf a, .inf b => some (if a = b then .eq else if a then .lt else .gt)
  | .inf a, .fin _ _ => some (if a then .lt else .gt)
  | .fin _ _, .inf b => some (if b then .gt else .lt)
  | .fin a m, .fin b n => some (compare (sval a m) (sval b n))

/-- `f64 == f64`. -/
def ieeeEq (a b : F64) : Bool := partialCmp a b == some .eq

/-- Integer division rounded to nearest, ties to even. -/
def rneDiv (a b : Nat) : Nat :=
  let q := a / b
  let r := a % b
  if 2 * r < b then q else if b < 2 * r then q + 1 else if q % 2 = 0 then q else q + 1

/-- The `f64` nearest to the non-negative rational `n / d` (ties to even; overflow to infinity). -/
def ofRat (neg : Bool) (n d : Nat) : F64 :=
  let q := n * scale / d
  let s := q.log2 - 52
  let m := rneDiv (n * scale) (d * 2 ^ s) * 2 ^ s
  if magLimit ≤ m then .inf neg else .fin neg m

/-- `u128 as f64`. -/
def ofNat (n : Nat) : F64 := ofRat false n 1

/-- `i128 as f64`. -/
def ofInt (i : Int) : F64 := ofRat (decide (i < 0)) i.natAbs 1

/-- `f64::round().abs()` of a finite float as an integer (half away from zero). -/
def roundMag (m : Nat) : Nat := (m + scale / 2) / scale

/-- Scaled magnitude of the literal `1e-10`. -/
def eps : Nat := 7737125245533627 * 2 ^ 988

/-- `f64::to_bits`. For finite values below `2^-1022` the bits are the scaled magnitude,
otherwise biased exponent and mantissa. -/
def toBits : F64 → Nat
  | .nan s p => (if s then 2 ^ 63 else 0) + 2047 * 2 ^ 52 + p
  | .inf s => (if s then 2 ^ 63 else 0) + 2047 * 2 ^ 52
  | .fin s m => (if s then 2 ^ 63 else 0) +
      (if m < 2 ^ 52 then m else (m.log2 - 51) * 2 ^ 52 + (m / 2 ^ (m.log2 - 52) - 2 ^ 52))

/-! ## Text -/

/-- The lowest `w` decimal digits of `r`, most significant first, in front of `acc`. -/
def fracDigits : Nat → Nat → Str → Str
  | 0, _, acc => acc
  | w + 1, r, acc => fracDigits w (r / 10) (digitChar (r % 10) :: acc)

/-- Cancel powers of ten in `n / 10^w`. -/
def decNorm : Nat → Nat → Nat × Nat
  | 0, n => (n, 0)
  | w + 1, n => if n % 10 = 0 then decNorm w (n / 10) else (n, w + 1)

/-- Decimal text of `n / 10^w` without exponent and without trailing zeros. -/
def decText (n w : Nat) : Str :=
  let (n', w') := decNorm w n
  natDigits (n' / 10 ^ w') ++ (if w' = 0 then [] else '.' :: fracDigits w' n' [])

/-- Powers of ten. -/
def pow10 (k : Nat) : Nat := 10 ^ k

/-- `10^1074`: every finite float is an integer multiple of `10^-1074`. -/
def decScale : Nat := pow10 1074

/-- `5^1074`: `m * 2^-1074 = m * 5^1074 / 10^1074`. -/
def decExact : Nat := 5 ^ 1074

/-- Try the two neighbouring `p`-digit decimals of `N / 10^1074` (`N` has `L` digits): those that
read back as the magnitude `m`, the closer one if both do. A tie goes to the larger one, as in std's
`flt2dec::strategy::dragon::format_shortest` (the fast `grisu` gives up on ties). -/
def shortestAt (m N L p : Nat) : Option Nat :=
  let u := 10 ^ (L - p)
  let lo := N / u * u
  let hi := lo + u
  let okLo := decide (ofRat false lo decScale = .fin false m)
  let okHi := decide (ofRat false hi decScale = .fin false m)
  if okLo && okHi then (if N - lo < hi - N then some lo else some hi)
  else if okLo then some lo
  else if okHi then some hi
  else none

/-- Try `p, p+1, ..` significant digits with the candidate function `f`; `dflt` when none fits. -/
def searchFrom (f : Nat → Option Nat) (dflt : Nat) : Nat → Nat → Nat
  | 0, _ => dflt
  | k + 1, p => match f p with
    | some D => D
    | none => searchFrom f dflt k (p + 1)

/-- The decimal (scaled by `10^1074`) printed for magnitude `m`: the shortest one that reads back as
`m`. The fall-back is the exact decimal expansion. -/
def shortest (m : Nat) : Nat :=
  let N := m * decExact
  searchFrom (shortestAt m N (natDigits N).length) N 17 1

/-- `Display for f64` (std): shortest decimal that reads back as the same value, never in
exponent notation; `NaN`, `inf`, `-inf`, `-0`. -/
def disp : F64 → Str
  | .nan _ _ => str "NaN"
  | .inf false => str "inf"
  | .inf true => str "-inf"
  | .fin s m => (if s then ['-'] else []) ++ decText (shortest m) 1074

/-- Take the longest prefix of digits. -/
def spanDigits : Str → Str × Str
  | [] => ([], [])
  | c :: r => if isDigit c then let (a, b) := spanDigits r; (c :: a, b) else ([], c :: r)

/-- Case-insensitive comparison with a lower-case word (`fast_float` special values). -/
def eqIgnoreCase (s w : Str) : Bool :=
  s.map (fun c => if decide ('A'.toNat ≤ c.toNat ∧ c.toNat ≤ 'Z'.toNat) then Char.ofNat (c.toNat + 32) else c) == w

/-- Exponent part of a decimal literal: empty, or `e`/`E`, optional sign, at least one digit. -/
def parseExp : Str → Option Int
  | [] => some 0
  | c :: r =>
    if c = 'e' ∨ c = 'E' then
      let (neg, ds) := match r with
        | '-' :: r' => (true, r')
        | '+' :: r' => (false, r')
        | r' => (false, r')
      if ds ≠ [] ∧ ds.all isDigit then
        some (if neg then - (digitsVal ds : Int) else (digitsVal ds : Int))
      else none
    else none

/-- Unsigned decimal literal `ddd[.ddd][e[+-]dd]` with at least one mantissa digit; correctly rounded. -/
def parseUnsigned (neg : Bool) (s : Str) : Option F64 :=
  let (ip, r) := spanDigits s
  let (fp, r') := match r with
    | '.' :: r1 => spanDigits r1
    | r1 => ([], r1)
  if ip = [] ∧ fp = [] then
    if eqIgnoreCase s (str "inf") || eqIgnoreCase s (str "infinity") then some (.inf neg)
    else if eqIgnoreCase s (str "nan") then some (.nan neg (2 ^ 51))
    else none
  else match parseExp r' with
    | none => none
    | some e =>
      let e10 := e - (fp.length : Int)
      let n := digitsVal (ip ++ fp)
      if 0 ≤ e10 then some (ofRat neg (n * 10 ^ e10.toNat) 1)
      else some (ofRat neg n (10 ^ (-e10).toNat))

/-- `fast_float::parse::<f64>` (0.2): optional sign, then a decimal literal or `inf`/`infinity`/`nan`. -/
def parse (s : Str) : Option F64 :=
  match s with
  | '-' :: r => parseUnsigned true r
  | '+' :: r => parseUnsigned false r
  | r => parseUnsigned false r

end F64
end KS
