import Verif.Model.Basic
/-!
# basE91 — crate `base91` used by `/repo/src/fmt/prims.rs` 83-89 and `/repo/src/parse/prims.rs` 59-72

Re-modelled from the basE91 reference algorithm (bit queue `b` with `n` bits); trusted base.
-/

namespace KS.Base91

/-- The alphabet. -/
def table : List Char :=
  "ABCDEFGHIJKLMNOPQRSTUVWXYZabcdefghijklmnopqrstuvwxyz0123456789!#$%&()*+,./:;<=>?@[]^_`{|}~\"".toList

def enChar (d : Nat) : Char := table.getD d 'A'

/-- Position in the alphabet; `none` for other characters. -/
def deChar (c : Char) : Option Nat := table.findIdx? (· == c)

/-- Encoder: feed one byte into the queue `(b, n)`, emitting two characters when more than 13 bits
are queued. -/
def encStep (b n : Nat) (x : Nat) : Nat × Nat × List Char :=
  let b := b + x * 2 ^ n
  let n := n + 8
  if n > 13 then
    let v := b % 2 ^ 13
    if v > 88 then (b / 2 ^ 13, n - 13, [enChar (v % 91), enChar (v / 91)])
    else
      let v := b % 2 ^ 14
      (b / 2 ^ 14, n - 14, [enChar (v % 91), enChar (v / 91)])
  else (b, n, [])

def encLoop : Nat → Nat → List Nat → List Char
  | b, n, [] =>
    if n = 0 then []
    else if n > 7 ∨ b > 90 then [enChar (b % 91), enChar (b / 91)]
    else [enChar (b % 91)]
  | b, n, x :: xs =>
    let (b', n', out) := encStep b n x
    out ++ encLoop b' n' xs

/-- `base91::iter_encode`. -/
def encode (bs : Bytes) : List Char := encLoop 0 0 (bs.map (·.toNat))

/-- Emit whole bytes from the queue while at least 8 bits remain, at least once.
With at most 14 + 7 queued bits there are one or two. -/
def drain (b n : Nat) : Nat × Nat × List Nat :=
  if n - 8 > 7 then (b / 2 ^ 16, n - 16, [b % 256, b / 256 % 256])
  else (b / 256, n - 8, [b % 256])

/-- Decoder: `v` is the pending first character of a pair. Characters outside the alphabet are skipped. -/
def decLoop : Nat → Nat → Option Nat → List Char → List Nat
  | b, n, v, [] =>
    match v with
    | none => []
    | some v => [(b + v * 2 ^ n) % 256]
  | b, n, v, c :: cs =>
    match deChar c with
    | none => decLoop b n v cs
    | some d =>
      match v with
      | none => decLoop b n (some d) cs
      | some v =>
        let w := v + d * 91
        let b := b + w * 2 ^ n
        let n := n + (if w % 2 ^ 13 > 88 then 13 else 14)
        let (b', n', out) := drain b n
        out ++ decLoop b' n' none cs

/-- `base91::slice_decode`. -/
def decode (cs : List Char) : Bytes := (decLoop 0 0 none cs).map (UInt8.ofNat ·)

end KS.Base91
