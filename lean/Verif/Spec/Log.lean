import Mathlib.Data.List.Basic
import Mathlib.Data.Nat.Notation

/-! # The log file -/

namespace Spec

/-- The lines written for a list of tests: one line each, followed by an empty line if the iteration is a positive multiple of 100. -/
def logText {ρ L : Type} (iter : ρ → ℕ) (line : ρ → L) (blank : L) (rows : List ρ) : List L :=
  rows.flatMap fun r => if 100 ∣ iter r ∧ 0 < iter r then [line r, blank] else [line r]

/-- One rank of a program that writes to a file shared with others: a text, and how much of it the rank has written. -/
structure Writer (L : Type) where
  text : List L
  pos : ℕ

/-- `write` at a file offset: the new characters replace old ones, or extend the file. -/
def writeAt {L : Type} (file : List L) (pos : ℕ) (t : List L) : List L := file.take pos ++ t ++ file.drop (pos + t.length)

/-- The next `n` characters of rank `r` reach the file. -/
def flush {L : Type} (s : List L × (ℕ → Writer L)) (r n : ℕ) : List L × (ℕ → Writer L) :=
  let c := ((s.2 r).text.drop (s.2 r).pos).take n
  (writeAt s.1 (s.2 r).pos c, fun q => if q = r then ⟨(s.2 r).text, (s.2 r).pos + c.length⟩ else s.2 q)

/-- A schedule of the flushes of all ranks on a file that starts empty. -/
def flushAll {L : Type} (texts : ℕ → List L) (sched : List (ℕ × ℕ)) : List L × (ℕ → Writer L) :=
  sched.foldl (fun s p => flush s p.1 p.2) ([], fun r => ⟨texts r, 0⟩)

end Spec
