import Verif.Model.Outcome
import Mathlib.Logic.Function.Basic

/-!
# Counting allocators (io/allocator/*.hpp, io/memory_mapped/allocator/counting_interprocess_allocator.hpp)

A counter is named by a number; all copies and rebound copies of an allocator hold the same counter (allocation_counter.hpp 29-30,
counting_allocator.hpp 41-46, counting_interprocess_allocator.hpp 58-63).  A block is the counter of the allocator through which it is going to be
released and its number of bytes; addresses are left out.
-/

set_option autoImplicit false

namespace MM.CountAlloc

/-- Counters (`std::size_t`) and the blocks not yet released (allocation_counter.hpp 51-57, counting_allocator.hpp 41-58). -/
structure St where
  cnt : Nat → Nat
  live : List (Nat × Nat)

/-- allocation_counter.hpp 51-53, thread_safe_allocation_counter.hpp 52-54 `add`. -/
def add (cnt : Nat → Nat) (c n : Nat) : Nat → Nat := Function.update cnt c ((cnt c + n) % 2 ^ 64)

/-- allocation_counter.hpp 55-57, thread_safe_allocation_counter.hpp 56-58 `sub`. -/
def sub (cnt : Nat → Nat) (c n : Nat) : Nat → Nat := Function.update cnt c ((cnt c + (2 ^ 64 - n % 2 ^ 64)) % 2 ^ 64)

/-- What containers do with their allocators; `ok` says whether the allocator below gives the memory (counting_allocator.hpp 33-58). -/
inductive Op
  /-- counting_allocator.hpp 50-53, counting_polymorphic_allocator.hpp 56-59, counting_interprocess_allocator.hpp 72-75 `allocate`, 115-118 `allocate_one`: -/
  | alloc (c n size : Nat) (ok : Bool)
  /-- counting_allocator.hpp 55-58, counting_polymorphic_allocator.hpp 61-64, counting_interprocess_allocator.hpp 77-82 `deallocate`, 125-130 `deallocate_one`: -/
  | free (c n size : Nat)
  /-- counting_interprocess_allocator.hpp 94-97 `allocate_many`, 120-123 `allocate_individual` (`elem` is one): -/
  | allocMany (c elem num size : Nat) (ok : Bool)
  /-- counting_interprocess_allocator.hpp 106-113 `deallocate_many`, 132-139 `deallocate_individual`; the chain is given by the bytes of its blocks. -/
  | freeMany (c : Nat) (chain : List Nat) (size : Nat)
  /-- counting_interprocess_allocator.hpp 84-92 `allocation_command`: the block given is resized, or a new one made. -/
  | command (c : Nat) (old : Option Nat) (bytes : Nat)
  /-- Containers exchange a block: counting_allocator.hpp 33-34, the allocators are always equal and are not exchanged along. -/
  | swap (c d bytes : Nat)

/-- A block is released: counting_allocator.hpp 57, counting_interprocess_allocator.hpp 80; releasing what is not there is undefined. -/
def release (live : List (Nat × Nat)) (b : Nat × Nat) : Outcome (List (Nat × Nat)) :=
  if b ∈ live then .ok (live.erase b) else .ub

/-- counting_interprocess_allocator.hpp 107-109, 133-135: a chain is released. -/
def releaseAll (c : Nat) : List Nat → List (Nat × Nat) → Outcome (List (Nat × Nat))
  | [], live => .ok live
  | b :: chain, live => (release live (c, b)).bind (releaseAll c chain)

/-- counting_interprocess_allocator.hpp 107-109, 133-135: the counter, once for each block of the chain. -/
def subAll (c size : Nat) : List Nat → (Nat → Nat) → Nat → Nat
  | [], cnt => cnt
  | _ :: chain, cnt => subAll c size chain (sub cnt c size)

/-- One operation, see `Op`; a failed allocation throws after the counter was changed, the state goes on (counting_allocator.hpp 33-58, counting_interprocess_allocator.hpp 72-139). -/
def step (s : St) : Op → Outcome St
  | .alloc c n size ok => .ok ⟨add s.cnt c (n * size), if ok then (c, n * size) :: s.live else s.live⟩
  | .free c n size => (release s.live (c, n * size)).map fun l => ⟨sub s.cnt c (n * size), l⟩
  | .allocMany c elem num size ok =>
    .ok ⟨add s.cnt c (elem * size * num), if ok then List.replicate num (c, elem * size) ++ s.live else s.live⟩
  | .freeMany c chain size => (releaseAll c chain s.live).map fun l => ⟨subAll c size chain s.cnt, l⟩
  | .command c none bytes => .ok ⟨s.cnt, (c, bytes) :: s.live⟩
  | .command c (some old) bytes => (release s.live (c, old)).map fun l => ⟨s.cnt, (c, bytes) :: l⟩
  | .swap c d bytes => (release s.live (c, bytes)).map fun l => ⟨s.cnt, (d, bytes) :: l⟩

/-- Any sequence of operations, through any allocators (counting_allocator.hpp 33-58, counting_interprocess_allocator.hpp 72-139). -/
def run (s : St) : List Op → Outcome St
  | [] => .ok s
  | o :: ops => (step s o).bind fun s' => run s' ops

/-- allocation_counter.hpp 26-27: counters start at zero, nothing is allocated. -/
def start : St := ⟨fun _ => 0, []⟩

end MM.CountAlloc
