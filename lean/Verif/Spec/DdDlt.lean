import Verif.Spec.Stats

/-! # Cutting an input into payloads -/

namespace Verif.Spec

open Verif

/-- The `i`-th piece of `n` bytes of the input. -/
def chunk (n : Nat) (input : Bytes) (i : Nat) : Bytes := (input.drop (i * n)).take n

/-- At most `cap` bytes follow the last newline, if there is one. -/
def LinesFit (cap : Nat) (data : Bytes) : Prop :=
  ∀ pre post, data = pre ++ [10] ++ post → 10 ∉ post → post.length ≤ cap

/-- Text is a decimal number: optional `+`, at least one digit. -/
def Decimal (s : Bytes) (v : Nat) : Prop :=
  ∃ ds : List Nat, ds ≠ [] ∧ (∀ d ∈ ds, d ≤ 9) ∧ ds.foldl (fun a d => a * 10 + d) 0 = v ∧
    (s = ds.map (fun d => UInt8.ofNat (48 + d)) ∨ s = 43 :: ds.map (fun d => UInt8.ofNat (48 + d)))

/-- A number in four bytes, least significant first. -/
def le4 (v : Nat) : Bytes := [digit v 0, digit v 1, digit v 2, digit v 3]

/-- A number in four bytes, most significant first. -/
def be4 (v : Nat) : Bytes := [digit v 3, digit v 2, digit v 1, digit v 0]

/-- The 34 bytes in front of payload number `i` (`n` bytes long): storage header (marker, seconds, microseconds, ECU id),
standard header (extended header and time stamp flagged, version 1; counter; length), time stamp, extended header
(message info, no arguments, twice the application id). The counter has 32 bits. -/
def ddHeader (ecuid appid : Bytes) (info : UInt8) (n i : Nat) : Bytes :=
  let c := i % 2 ^ 32
  [68, 76, 84, 1] ++ le4 (c / 100) ++ le4 (c % 100 * 10000) ++ ecuid ++
  [0x31, digit c 0, digit (18 + n) 1, digit (18 + n) 0] ++ be4 (100 * c) ++ [info, 0] ++ appid ++ appid

/-- How many bytes may follow the last newline of a payload without a loss: 1024 with the standard library of the
commit's date, 1023 with later ones. -/
def roomBehind (late : Bool) : Nat := if late then 1023 else 1024

/-- The part of `data` that a line-buffered output of 1024 bytes takes in one call: all of it if it has no newline;
otherwise everything up to the last newline, and of what follows at most 1024 bytes, or (later versions) all of it if
it has fewer than 1024 bytes and nothing otherwise. -/
def Accepted (late : Bool) (data part : Bytes) : Prop :=
  (10 ∉ data ∧ part = data) ∨
  ∃ pre post, data = pre ++ [10] ++ post ∧ 10 ∉ post ∧
    part = pre ++ [10] ++ (if late then (if post.length < 1024 then post else []) else post.take 1024)

end Verif.Spec
