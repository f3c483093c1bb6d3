import Mathlib.Data.Rat.Defs
import Mathlib.Algebra.Order.Ring.Unbundled.Rat
import Mathlib.Order.Defs.LinearOrder

/-! Specification of a bounded cache with least-recently-used replacement and expiry: the list of its entries,
least recently used first. -/
namespace Verif.Spec

/-- An entry: key, value, time of insertion. -/
structure CacheEntry (ν : Type) where
  key : String
  val : ν
  time : ℚ

/-- The cache: size limit (0 = none), living time (0 = unlimited), entries from least to most recently used. -/
structure LRU (ν : Type) where
  limit : Nat
  expiry : ℚ
  entries : List (CacheEntry ν)

namespace LRU
variable {ν : Type}

/-- Look up a key. -/
def find (l : LRU ν) (k : String) : Option (CacheEntry ν) := l.entries.find? fun e => e.key = k

/-- All entries but the one for `k`. -/
def without (l : LRU ν) (k : String) : List (CacheEntry ν) := l.entries.filter fun e => e.key ≠ k

/-- Is the entry too old? -/
def old (l : LRU ν) (e : CacheEntry ν) (now : ℚ) : Prop := l.expiry ≠ 0 ∧ e.time + l.expiry < now

instance (l : LRU ν) (e : CacheEntry ν) (now : ℚ) : Decidable (l.old e now) := by unfold old; infer_instance

/-- Evict the least recently used entries until `nb` more fit. -/
def evict (l : LRU ν) (nb : Nat) : LRU ν :=
  if l.limit = 0 then l else { l with entries := l.entries.drop (l.entries.length + nb - l.limit) }

/-- Insert a new key: evict, then the new entry is the most recent one. -/
def insert (l : LRU ν) (k : String) (v : ν) (now : ℚ) : LRU ν :=
  { l.evict 1 with entries := (l.evict 1).entries ++ [⟨k, v, now⟩] }

/-- Fetch: an entry too old is dropped; a fetched entry becomes the most recent one. -/
def fetch (l : LRU ν) (k : String) (now : ℚ) : LRU ν × Option ν :=
  match l.find k with
  | none => (l, none)
  | some e => if l.old e now then ({ l with entries := l.without k }, none)
    else ({ l with entries := l.without k ++ [e] }, some e.val)

/-- Remove a key, if present. -/
def remove (l : LRU ν) (k : String) : LRU ν := { l with entries := l.without k }

/-- Drop all entries too old. -/
def collect (l : LRU ν) (now : ℚ) : LRU ν := { l with entries := l.entries.filter fun e => ¬ l.old e now }

end LRU
end Verif.Spec
