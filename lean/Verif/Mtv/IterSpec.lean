import Verif.Mtv.Iter

/-!
# multi_type_vector iterators: specification

An iterator is one index into the blocks of one store, the container that made it, and the
description of the block at the time the iterator was last placed or moved.  Calls on a
container are made without hints: a hint must not matter.
-/

namespace Mdds.Mtv.Iter
open Mdds

variable {α : Type}

/-- An abstract iterator: kind, maker, store and index (a reverse iterator at `k` shows block
`k - 1`), and the description it shows (`none` at the end). -/
structure SIt where
  rev : Bool
  const : Bool
  owner : Option Nat
  at_ : Option (Nat × Nat)
  seen : Option Info
  deriving DecidableEq, Repr

/-- Stores, containers (store, and whether the container may still be used for calls: not after
it was moved from), iterators. -/
structure SWorld (α : Type) where
  stores : Nat → Option (St α)
  ctrs : Nat → Option (Nat × Bool)
  its : Nat → Option SIt
  next : Nat

def SWorld.empty : SWorld α := ⟨fun _ => none, fun _ => none, fun _ => none, 0⟩

/-- The block an iterator at index `k` designates. -/
def blockAt (s : St α) (rev : Bool) (k : Nat) : Option (Blk α) :=
  match rev, k with
  | false, k => s.blocks[k]?
  | true, 0 => none
  | true, k + 1 => s.blocks[k]?

/-- The description of the block an iterator at index `k` designates. -/
def infoAt (s : St α) (rev : Bool) (k : Nat) : Option Info := (blockAt s rev k).map Blk.info

/-- The end index. -/
def lastIdx (s : St α) (rev : Bool) : Nat := if rev then 0 else s.blocks.length

/-- The first index. -/
def firstIdx (s : St α) (rev : Bool) : Nat := if rev then s.blocks.length else 0

/-- A new iterator of container `c`. -/
def place (s : St α) (rev const : Bool) (owner : Option Nat) (a k : Nat) : SIt :=
  ⟨rev, const, owner, some (a, k), infoAt s rev k⟩

/-- The store an iterator points into, while it exists. -/
def SWorld.alive (u : SWorld α) (x : SIt) : Option (St α × Nat × Nat) :=
  match x.at_ with
  | some (a, k) => (u.stores a).map fun s => (s, a, k)
  | none => none

/-- The store of a container. -/
def SWorld.store (u : SWorld α) (c : Nat) : Option (Nat × Bool × St α) :=
  match u.ctrs c with
  | some (a, b) => (u.stores a).map fun s => (a, b, s)
  | none => none

/-- What a container that was moved from holds: no block.  Its size is unspecified for the caller (the
calls and `position` on it are not legal); `s.cur` is what the code leaves there. -/
def hollow (s : St α) : St α := ⟨[], s.cur, [], [], s.next⟩

def SWorld.setIt (u : SWorld α) (i : Nat) (x : SIt) : SWorld α := { u with its := put u.its i (some x) }

/-- The index after a step towards the end. -/
def fwd (rev : Bool) (k : Nat) : Nat := if rev then k - 1 else k + 1
/-- The index after a step away from the end. -/
def bwd (rev : Bool) (k : Nat) : Nat := if rev then k + 1 else k - 1

/-- Two iterators of one kind into one store are equal. -/
def SIt.same (x y : SIt) : Bool :=
  decide (x.at_ = y.at_ ∧ (x.seen = none ∨ (x.owner = y.owner ∧ x.seen = y.seen)))

/-- A call: its effect is that of the call without a hint. -/
def SWorld.doCall (u : SWorld α) (c : Nat) (f : Call α) (ret : Option Nat) : SWorld α × Ans α :=
  match u.store c with
  | some (a, b, s) =>
    match f.plain.run s with
    | .ok (r, s') =>
      let a' := if inPlace s f then a else u.next
      let u' : SWorld α :=
        if inPlace s f then { u with stores := put u.stores a (some s') }
        else { u with stores := put (put u.stores a none) u.next (some s'), ctrs := put u.ctrs c (some (u.next, b)), next := u.next + 1 }
      match ret, r.idx with
      | some i, some k => (u'.setIt i (place s' false false (some c) a' k), r.ans)
      | _, _ => (u', r.ans)
    | .err e _ => (u, .threw e)
    | .ub => (u, .unit)
  | none => (u, .unit)

/-- The arrays of a container are replaced by `s'`: a new store. -/
def SWorld.renew (u : SWorld α) (c : Nat) (s' : St α) : SWorld α :=
  match u.ctrs c with
  | some (a, b) =>
    { u with stores := put (put u.stores a none) u.next (some s'), ctrs := put u.ctrs c (some (u.next, b)), next := u.next + 1 }
  | none => u

/-- What a step has to do; steps that are not legal are left out. -/
def SWorld.step (u : SWorld α) : Cmd α → SWorld α × Ans α
  | .make c k =>
    match k.run with
    | .ok s => ({ u with stores := put u.stores u.next (some s), ctrs := put u.ctrs c (some (u.next, true)), next := u.next + 1 }, .unit)
    | .err e => (u, .threw e)
    | .ub => (u, .unit)
  | .destroy c =>
    match u.ctrs c with
    | some (a, _) => ({ u with stores := put u.stores a none, ctrs := put u.ctrs c none }, .unit)
    | none => (u, .unit)
  | .swap c d => ({ u with ctrs := put (put u.ctrs c (u.ctrs d)) d (u.ctrs c) }, .unit)
  | .moveNew c d =>
    match u.store d with
    | some (a, b, s) =>
      ({ u with ctrs := put (put u.ctrs c (some (a, b))) d (some (u.next, false)), stores := put u.stores u.next (some (hollow s)),
                next := u.next + 1 }, .unit)
    | none => (u, .unit)
  | .moveTo c d =>
    if c = d then (u, .unit)
    else
      match u.store c, u.store d with
      | some (a, _, _), some (b, f, s) =>
        ({ u with ctrs := put (put u.ctrs c (some (b, f))) d (some (u.next, false)),
                  stores := put (put u.stores a none) u.next (some (hollow s)), next := u.next + 1 }, .unit)
      | _, _ => (u, .unit)
  | .call c f _ ret => u.doCall c f ret
  | .transfer c d first last dest _ ret =>
    match u.store c, u.store d with
    | some (_, _, s), some (_, _, t) =>
      match Mtv.transfer false none first last dest s t, ret with
      | .ok k s' t', some i => (((u.renew c s').renew d t').setIt i (place s' false false (some c) u.next k), .unit)
      | .ok _ s' t', none => ((u.renew c s').renew d t', .unit)
      | .err e _ _, _ => (u, .threw e)
      | .ub, _ => (u, .unit)
    | _, _ => (u, .unit)
  | .swapRange c d first last dest =>
    match u.store c, u.store d with
    | some (_, _, s), some (_, _, t) =>
      match Mtv.swapRange first last dest s t with
      | .ok _ s' t' => ((u.renew c s').renew d t', .unit)
      | .err e _ _ => (u, .threw e)
      | .ub => (u, .unit)
    | _, _ => (u, .unit)
  | .position c const pos _ ret =>
    match u.store c with
    | some (a, _, s) =>
      match Mtv.position none pos s with
      | .ok (r, _) => (u.setIt ret (place s false const (some c) a r.1), .num r.2)
      | .err e _ => (u, .threw e)
      | .ub => (u, .unit)
    | none => (u, .unit)
  | .begin_ c rev const i =>
    match u.store c with
    | some (a, _, s) => (u.setIt i (place s rev const (some c) a (firstIdx s rev)), .unit)
    | none => (u, .unit)
  | .end_ c rev const i =>
    match u.store c with
    | some (a, _, s) => (u.setIt i (place s rev const (some c) a (lastIdx s rev)), .unit)
    | none => (u, .unit)
  | .fresh rev const i => (u.setIt i ⟨rev, const, none, none, none⟩, .unit)
  | .copy i j =>
    match u.its j with
    | some x => (u.setIt i x, .unit)
    | none => (u, .unit)
  | .convert i j =>
    match u.its j with
    | some x =>
      match u.alive x with
      | some (s, a, k) => (u.setIt i (place s x.rev true x.owner a k), .unit)
      | none => (u, .unit)
    | none => (u, .unit)
  | .swapIt i j => ({ u with its := put (put u.its i (u.its j)) j (u.its i) }, .unit)
  | .inc i =>
    match u.its i with
    | some x =>
      match u.alive x with
      | some (s, a, k) => (u.setIt i (place s x.rev x.const x.owner a (fwd x.rev k)), .unit)
      | none => (u, .unit)
    | none => (u, .unit)
  | .dec i =>
    match u.its i with
    | some x =>
      match u.alive x with
      | some (s, a, k) => (u.setIt i (place s x.rev x.const x.owner a (bwd x.rev k)), .unit)
      | none => (u, .unit)
    | none => (u, .unit)
  | .deref i =>
    match u.its i with
    | some ⟨_, _, _, _, some n⟩ => (u, .info n)
    | _ => (u, .unit)
  | .equal i j =>
    match u.its i, u.its j with
    | some x, some y => (u, .bool (x.same y))
    | _, _ => (u, .unit)
  | .next i off =>
    match u.its i with
    | some x =>
      match x.seen with
      | some n =>
        if off + 1 < n.size then (u, .num (off + 1))
        else
          match u.alive x with
          | some (s, a, k) => (u.setIt i (place s x.rev x.const x.owner a (k + 1)), .num 0)
          | none => (u, .unit)
      | none => (u, .unit)
    | none => (u, .unit)
  | .logical i off =>
    match u.its i with
    | some ⟨_, _, _, _, some n⟩ => (u, .num (n.pos + off))
    | _ => (u, .unit)

/-- A hint is any forward iterator that exists: default constructed, at the end, dangling or of
another container. -/
def SWorld.HintOk (u : SWorld α) (L : List (Cell α)) (hint : Option Nat) : Prop :=
  ∀ i, hint = some i → (∃ x, u.its i = some x ∧ x.rev = false) ∧ L ≠ []

/-- The steps the property is about. -/
def SWorld.Legal (u : SWorld α) : Cmd α → Prop
  | .make c _ => u.ctrs c = none
  | .destroy c => u.ctrs c ≠ none
  | .swap c d | .moveTo c d => u.ctrs c ≠ none ∧ u.ctrs d ≠ none
  | .moveNew c d => u.ctrs c = none ∧ u.ctrs d ≠ none
  | .call c f hint _ => ∃ a s, u.store c = some (a, true, s) ∧ f.plain.Defined (contents s) ∧ u.HintOk (contents s) hint
  | .transfer c d _ _ _ hint _ => c ≠ d ∧ ∃ a s b t, u.store c = some (a, true, s) ∧ u.store d = some (b, true, t) ∧
      u.HintOk (contents s) hint
  | .swapRange c d _ _ _ => c ≠ d ∧ ∃ a s b t, u.store c = some (a, true, s) ∧ u.store d = some (b, true, t)
  | .position c _ _ hint _ => ∃ a s, u.store c = some (a, true, s) ∧ u.HintOk (contents s) hint
  | .begin_ c _ _ _ | .end_ c _ _ _ => u.ctrs c ≠ none
  | .fresh _ _ _ => True
  | .copy _ j => u.its j ≠ none
  | .convert _ j => ∃ x, u.its j = some x ∧ x.const = false ∧ u.alive x ≠ none
  | .swapIt i j => ∃ x y, u.its i = some x ∧ u.its j = some y ∧ x.rev = y.rev ∧ x.const = y.const
  | .inc i => ∃ x, u.its i = some x ∧ u.alive x ≠ none ∧ x.seen ≠ none
  | .dec i => ∃ x s a k, u.its i = some x ∧ u.alive x = some (s, a, k) ∧ k ≠ firstIdx s x.rev
  | .deref i => ∃ x, u.its i = some x ∧ x.seen ≠ none
  | .equal i j => ∃ x y, u.its i = some x ∧ u.its j = some y ∧ x.rev = y.rev ∧ x.const = y.const ∧
      x.at_.map Prod.fst = y.at_.map Prod.fst ∧ u.alive x ≠ none
  | .next i off => ∃ x n, u.its i = some x ∧ x.rev = false ∧ x.seen = some n ∧ (off + 1 < n.size ∨ u.alive x ≠ none)
  | .logical i _ => ∃ x, u.its i = some x ∧ x.rev = false ∧ x.seen ≠ none

/-- Every step of a program is legal when its turn comes. -/
def SWorld.LegalAll (u : SWorld α) : List (Cmd α) → Prop
  | [] => True
  | c :: cs => u.Legal c ∧ (u.step c).1.LegalAll cs

/-- The wanted answers and the final world. -/
def SWorld.run (u : SWorld α) : List (Cmd α) → SWorld α × List (Ans α)
  | [] => (u, [])
  | c :: cs => let r := (u.step c).1.run cs; (r.1, (u.step c).2 :: r.2)

end Mdds.Mtv.Iter
