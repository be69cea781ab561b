import Verif.Model.Basic

/-!
# Model of the memory routines of /repo/DuckLib/core.c

Memory is a function from addresses to bytes.  With `USE_STDLIB` the first and the last routine are
the C library's `memmove` and `memset`; the model is of the code compiled without it.
-/

namespace DuckLisp.Mem

/-- Byte memory. -/
abbrev Memory := Nat → Byte

/-- `*d = v`. -/
def store (m : Memory) (d : Nat) (v : Byte) : Memory := fun a => if a = d then v else m a

/-- core.c:35-37 and 46-48: copy upwards, `n` bytes to go, at `d` and `s`. -/
def copyUp : Nat → Memory → Nat → Nat → Memory
  | 0, m, _, _ => m
  | n + 1, m, d, s => copyUp n (store m d (m s)) (d + 1) (s + 1)

/-- core.c:28-31: copy downwards; `n` bytes to go, the last of them at `d + n - 1` and `s + n - 1`. -/
def copyDown : Nat → Memory → Nat → Nat → Memory
  | 0, m, _, _ => m
  | n + 1, m, d, s => copyDown n (store m (d + n) (m (s + n))) d s

/-- core.c:25-39 `dl_memcopy`. -/
def memcopy (m : Memory) (destination source size : Nat) : Memory :=
  if destination > source then copyDown size m destination source
  else if destination < source then copyUp size m destination source
  else m

/-- core.c:42-50 `dl_memcopy_noOverlap`. -/
def memcopyNoOverlap (m : Memory) (destination source size : Nat) : Memory :=
  if size ≠ 0 then copyUp size m destination source else m

/-- core.c:58-60: the loop of `dl_memclear` from index `i` on, `n` iterations to go. -/
def clearLoop : Nat → Memory → Nat → Nat → Memory
  | 0, m, _, _ => m
  | n + 1, m, d, i => clearLoop n (store m (d + i) 0) d (i + 1)

/-- core.c:57-61 `dl_memclear`. -/
def memclear (m : Memory) (destination size : Nat) : Memory := clearLoop size m destination 0

/-- core.c:64-70 `dl_strlen`; the fuel bounds the search for the terminating zero. -/
def strlenFrom (m : Memory) (string : Nat) : Nat → Nat → Option Nat
  | 0, _ => none
  | fuel + 1, i => if m (string + i) ≠ 0 then strlenFrom m string fuel (i + 1) else some i

end DuckLisp.Mem
