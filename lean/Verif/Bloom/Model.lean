import Verif.Common.Mem
/-
Model of lib/bloom.c.
-/
namespace Fio.Bloom

/-- lib/bloom.c:10-14 `struct bloom`. -/
structure Bloom where
  nentries : Nat
  map : List (BitVec 32)
deriving DecidableEq, Repr

/-- The signature of a hash (lib/bloom.c:21), with its seed applied: lib/bloom.c:36-57 lists five
of them (jhash, XXH32, murmurhash3, crc32c, fnv), of which only determinism matters here. -/
abbrev Hash := List Byte → BitVec 32

/-- lib/bloom.c:61-79 `bloom_new`, allocations succeeding; `entries` is a `uint64_t` and the
number of words is computed in 64-bit arithmetic. -/
def bloomNew (entries : Nat) : Bloom :=
  { nentries := entries, map := List.replicate ((entries + 32 - 1) % 2 ^ 64 / 32) 0#32 }

/-- lib/bloom.c:99-109, the loop over the hash values; `none` is an access outside the map.  In
the `break` case the count so far is returned. -/
def checkLoop (set : Bool) : List Nat → List (BitVec 32) → Nat → Option (List (BitVec 32) × Nat)
  | [], map, wasSet => some (map, wasSet)
  | h :: hs, map, wasSet =>
    match map[h / 32]? with
    | none => none
    | some w =>
      if w &&& (1#32 <<< (h % 32)) ≠ 0#32 then checkLoop set hs map (wasSet + 1)
      else if set then checkLoop set hs (map.set (h / 32) (w ||| (1#32 <<< (h % 32)))) wasSet
      else some (map, wasSet)

/-- lib/bloom.c:87-112 `__bloom_check`; `none` is a division by zero or an access outside the
map. -/
def bloomCheck (hashes : List Hash) (b : Bloom) (data : List Byte) (set : Bool) :
    Option (Bloom × Bool) :=
  if b.nentries = 0 then none else do
    let (map, wasSet) ← checkLoop set (hashes.map fun f => (f data).toNat % b.nentries) b.map 0
    return ({ b with map := map }, decide (wasSet = hashes.length))

/-- A sequence of `bloom_set`/`bloom_string` calls (lib/bloom.c:114-123), collecting the
answers. -/
def run (hashes : List Hash) (b : Bloom) : List (List Byte × Bool) → Option (Bloom × List Bool)
  | [] => some (b, [])
  | (d, s) :: ops => do
    let (b', r) ← bloomCheck hashes b d s
    let (b'', rs) ← run hashes b' ops
    return (b'', r :: rs)

end Fio.Bloom
