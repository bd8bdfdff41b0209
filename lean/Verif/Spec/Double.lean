/-
  Specification: IEEE 754 double precision arithmetic on bit patterns, as the SSE2 and SSE4.1
  instructions do it (Intel SDM vol. 1, chapters 4.8 and 11, and the instruction pages in vol. 2)
  with the control register MXCSR in its initial state: round to nearest even, all exceptions
  masked, no flush to zero. Status bits of MXCSR are not modelled.
-/

namespace X86.Double

/-- What a bit pattern stands for. `fin neg m e` is the number `±m · 2^(e - 1074)`. -/
inductive Value where
  | nan
  | inf (neg : Bool)
  | fin (neg : Bool) (m e : Nat)
deriving DecidableEq, Repr

/-- Sign bit, 11 bits of exponent, 52 bits of fraction. -/
def value (b : BitVec 64) : Value :=
  let ex := (b.extractLsb' 52 11).toNat
  let fr := (b.extractLsb' 0 52).toNat
  if ex = 2047 then (if fr = 0 then .inf b.msb else .nan)
  else if ex = 0 then .fin b.msb fr 0
  else .fin b.msb (2 ^ 52 + fr) (ex - 1)

def isNan (b : BitVec 64) : Bool := value b = .nan

/-- A number in units of the smallest positive double, `2^-1074`. -/
def units (neg : Bool) (m e : Nat) : Int := if neg then -(m * 2 ^ e : Nat) else (m * 2 ^ e : Nat)

/-- The result of an invalid operation ("QNaN floating-point indefinite"). -/
def indefinite : BitVec 64 := 0xfff8000000000000

/-- A signalling NaN becomes quiet. -/
def quiet (b : BitVec 64) : BitVec 64 := b ||| 0x0008000000000000

/-- The NaN that an operation on `a` (destination) and `b` gives if one of them is a NaN. -/
def propagate (a b : BitVec 64) : BitVec 64 := if isNan a then quiet a else quiet b

def withSign (neg : Bool) (n : Nat) : BitVec 64 := BitVec.ofNat 64 (n + (if neg then 2 ^ 63 else 0))

def infinity (neg : Bool) : BitVec 64 := withSign neg (2047 * 2 ^ 52)
def zero (neg : Bool) : BitVec 64 := withSign neg 0

/-- The quotient rounded to an integer, to the nearest one and to the even one of two nearest. -/
def nearestEven (n d : Nat) : Nat :=
  let q := n / d
  let r := n % d
  if d < 2 * r ∨ (2 * r = d ∧ q % 2 = 1) then q + 1 else q

/-- The bit pattern of `±q · 2^(e - 1074)` for `q ≤ 2^53`, which is a double if `e = 0` or
    `2^52 ≤ q`: exponent field `e + 1` and fraction `q - 2^52`, or exponent field 0 and fraction `q`.
    Numbers that are too large become infinite. -/
def pack (neg : Bool) (q e : Nat) : BitVec 64 :=
  if 2047 * 2 ^ 52 ≤ e * 2 ^ 52 + q then infinity neg else withSign neg (e * 2 ^ 52 + q)

/-- The double nearest to `±(n / d) · 2^-1074`. -/
def round (neg : Bool) (n d : Nat) : BitVec 64 :=
  let e := (n / d).log2 - 52
  pack neg (nearestEven n (d * 2 ^ e)) e

/-- The double nearest to `z · 2^-1074`; an exact zero gets the given sign. -/
def roundInt (z : Int) (negZero : Bool) : BitVec 64 :=
  if z = 0 then zero negZero else round (z < 0) z.natAbs 1

def add (a b : BitVec 64) : BitVec 64 :=
  match value a, value b with
  | .nan, _ => propagate a b
  | _, .nan => propagate a b
  | .inf s, .inf t => if s = t then a else indefinite
  | .inf _, .fin _ _ _ => a
  | .fin _ _ _, .inf _ => b
  | .fin s m e, .fin t n f => roundInt (units s m e + units t n f) (s && t)

/-- Change of sign. -/
def neg (b : BitVec 64) : BitVec 64 := b ^^^ 0x8000000000000000

def sub (a b : BitVec 64) : BitVec 64 :=
  if isNan a ∨ isNan b then propagate a b else add a (neg b)

def mul (a b : BitVec 64) : BitVec 64 :=
  match value a, value b with
  | .nan, _ => propagate a b
  | _, .nan => propagate a b
  | .inf s, .inf t => infinity (s != t)
  | .inf s, .fin t n _ => if n = 0 then indefinite else infinity (s != t)
  | .fin s m _, .inf t => if m = 0 then indefinite else infinity (s != t)
  | .fin s m e, .fin t n f => round (s != t) (m * 2 ^ e * (n * 2 ^ f)) (2 ^ 1074)

def div (a b : BitVec 64) : BitVec 64 :=
  match value a, value b with
  | .nan, _ => propagate a b
  | _, .nan => propagate a b
  | .inf _, .inf _ => indefinite
  | .inf s, .fin t _ _ => infinity (s != t)
  | .fin s _ _, .inf t => zero (s != t)
  | .fin s m e, .fin t n f =>
    if n = 0 then (if m = 0 then indefinite else infinity (s != t))
    else round (s != t) (m * 2 ^ e * 2 ^ 1074) (n * 2 ^ f)

/-- The largest `q < 2^k` with `(q · 2^e)^2 ≤ n`, found bit by bit; `q` has bits above `k` already. -/
def rootFrom (n e : Nat) : Nat → Nat → Nat
  | 0, q => q
  | k + 1, q => rootFrom n e k (if ((q + 2 ^ k) * 2 ^ e) ^ 2 ≤ n then q + 2 ^ k else q)

/-- The double nearest to `√n · 2^-1074`. -/
def roundRoot (n : Nat) : BitVec 64 :=
  let e := (n.log2 / 2) - 52
  let q := rootFrom n e 53 0
  -- `√n / 2^e` is compared with `q + 1/2`
  let h := ((2 * q + 1) * 2 ^ e) ^ 2
  pack false (if h < 4 * n ∨ (h = 4 * n ∧ q % 2 = 1) then q + 1 else q) e

def sqrt (a : BitVec 64) : BitVec 64 :=
  match value a with
  | .nan => quiet a
  | .inf s => if s then indefinite else a
  | .fin s m e => if m = 0 then a else if s then indefinite else roundRoot (m * 2 ^ e * 2 ^ 1074)

/-- Order of numbers; false if one of the operands is a NaN. -/
def lt (a b : BitVec 64) : Bool :=
  match value a, value b with
  | .nan, _ => false
  | _, .nan => false
  | .inf s, .inf t => s && !t
  | .inf s, .fin _ _ _ => s
  | .fin _ _ _, .inf t => !t
  | .fin s m e, .fin t n f => units s m e < units t n f

/-- `minsd`, `maxsd`: the second operand unless the first one is less, or greater. -/
def min (a b : BitVec 64) : BitVec 64 := if lt a b then a else b
def max (a b : BitVec 64) : BitVec 64 := if lt b a then a else b

/-- Rounding modes of `roundpd`, from the immediate operand: bit 2 selects the mode of MXCSR. -/
inductive Mode where
  | nearest | down | up | zero
deriving DecidableEq, Repr

def Mode.of (m : BitVec 8) : Mode :=
  if m.getLsbD 2 then .nearest
  else if m.extractLsb' 0 2 = 0#2 then .nearest
  else if m.extractLsb' 0 2 = 1#2 then .down
  else if m.extractLsb' 0 2 = 2#2 then .up
  else .zero

/-- The magnitude `n / d` rounded to an integer. -/
def Mode.round (mode : Mode) (neg : Bool) (n d : Nat) : Nat :=
  match mode with
  | .nearest => nearestEven n d
  | .zero => n / d
  | .down => if neg ∧ n % d ≠ 0 then n / d + 1 else n / d
  | .up => if ¬ neg ∧ n % d ≠ 0 then n / d + 1 else n / d

/-- Rounding to an integer, as a double. -/
def toIntegral (mode : Mode) (a : BitVec 64) : BitVec 64 :=
  match value a with
  | .nan => quiet a
  | .inf _ => a
  | .fin s m e => Double.round s (mode.round s (m * 2 ^ e) (2 ^ 1074) * 2 ^ 1074) 1

/-- Conversion to a signed integer of `w` bits with truncation; `-2^(w-1)` if it does not fit. -/
def truncate (w : Nat) (a : BitVec 64) : BitVec w :=
  match value a with
  | .fin s m e =>
    let z : Int := (units s m e).tdiv (2 ^ 1074 : Nat)
    if (BitVec.ofInt w z).toInt = z then BitVec.ofInt w z else BitVec.intMin w
  | _ => BitVec.intMin w

/-- Conversion of a signed integer. -/
def ofInt (z : Int) : BitVec 64 := roundInt (z * 2 ^ 1074) false

end X86.Double
