import Verif.Trie.Spec

/-!
# packed_trie_map: model

Source: `/repo/include/mdds/trie_map.hpp` (`tm.hpp`), `trie_map_def.inl` (`tm.inl`),
`trie_map_itr.hpp` (`itr.hpp`).

The packed buffer `m_packed` is a list of numbers below `cap`, the number of values of `pack_value_type`
(2^8, 2^16, 2^32 or 2^64): everything that is pushed into it is reduced modulo `cap`.  A pointer into the
buffer is its index; a read outside of the buffer or a step before its begin is undefined.  Key units are
natural numbers.  The value store is a list.  Moving values out of the source (`move_to_pack`) is the same
as copying them: the source is not looked at afterwards.
-/
namespace Mdds.Packed
open Mdds.Trie

variable {V : Type}

/-- `m_packed` and `m_value_store` (`tm.hpp` 541-548). -/
structure Packed (V : Type) where
  pk : List Nat
  vals : List V
  deriving Repr, DecidableEq

/-- `null_value` (`tm.hpp` 546). -/
def nullValue (cap : Nat) : Nat := cap - 1

/-- `max_value_pos` (`tm.hpp` 548). -/
def maxValuePos (cap : Nat) : Nat := nullValue cap - 1

/-- Second half of `compact_node` (`tm.inl` 1085-1097, 1113-1125) with `push_value_to_store`
(`tm.inl` 1138-1156) and `push_child_offsets` (`tm.inl` 1158-1170); returns the offset of the node. -/
def finishNode (cap : Nat) (v : Option V) (offs : List (Nat × Nat)) (s : Packed V) : Outcome (Packed V × Nat) :=
  let offset := s.pk.length
  let tail := (2 * offs.length % cap) :: offs.flatMap fun x => [x.2 % cap, (offset - x.1) % cap]
  match v with
  | none => .ok (⟨s.pk ++ nullValue cap :: tail, s.vals⟩, offset)
  | some x =>
    if maxValuePos cap ≤ s.vals.length then .err .size
    else .ok (⟨s.pk ++ (s.vals.length % cap) :: tail, s.vals ++ [x]⟩, offset)

/-- First half of `compact_node` (`tm.inl` 1071-1083, 1099-1111): the children, in order; returns their
offsets and key units. -/
def compactKids (cap : Nat) : Kids V → Packed V → Outcome (Packed V × List (Nat × Nat))
  | .nil, s => .ok (s, [])
  | .cons c v k r, s =>
    match compactKids cap k s with
    | .ok (s1, offs) => match finishNode cap v offs s1 with
      | .ok (s2, off) => match compactKids cap r s2 with
        | .ok (s3, l) => .ok (s3, (off, c) :: l)
        | .err e => .err e
        | .ub => .ub
      | .err e => .err e
      | .ub => .ub
    | .err e => .err e
    | .ub => .ub

/-- `compact` with `init_pack` (`tm.inl` 1172-1195): `trie_map::pack()` (`tm.inl` 1014-1018) and the
constructor from a `trie_map` (`tm.inl` 1342-1346). -/
def pack (cap : Nat) (root : Node V) : Outcome (Packed V) :=
  match compactKids cap root.kids ⟨[0], []⟩ with
  | .ok (s1, offs) => match finishNode cap root.val offs s1 with
    | .ok (s2, off) => .ok ⟨s2.pk.set 0 (off % cap), s2.vals⟩
    | .err e => .err e
    | .ub => .ub
  | .err e => .err e
  | .ub => .ub

/-- Default constructor (`tm.inl` 1294-1302). -/
def defaultPacked : Packed V := ⟨[1, 0, 0], []⟩

/-! ## Construction from a sorted list of entries -/

def kidsOfList : List (Nat × Node V) → Kids V
  | [] => .nil
  | (c, n) :: l => .cons c n.val n.kids (kidsOfList l)

/-- State of the loop of `traverse_range`: value and children of the node, the entries from `range_start`
on, `range_char`, `range_count`. -/
structure TR (V : Type) where
  val : Option V
  kids : List (Nat × Node V)
  range : List (Key × V)
  char : Nat
  count : Nat

/-- The loop of `traverse_range` (`tm.inl` 1031-1060); `rec` is the recursive call at `pos + 1`. The unit 0
stands for "no range yet". -/
def traverseLoop (rec : List (Key × V) → Outcome (Node V)) (pos : Nat) : List (Key × V) → TR V → Outcome (TR V)
  | [], s => .ok s
  | e :: es, s =>
    match e.1.drop pos with
    | [] =>
      if e.1.length < pos then traverseLoop rec pos es { s with range := s.range ++ [e] }
      else traverseLoop rec pos es { s with val := some e.2, range := s.range ++ [e] }
    | c :: _ =>
      if s.char = 0 then traverseLoop rec pos es { s with range := s.range ++ [e], char := c, count := s.count + 1 }
      else if s.char ≠ c then
        match rec s.range with
        | .ok n => traverseLoop rec pos es ⟨s.val, s.kids ++ [(s.char, n)], [e], c, 1⟩
        | .err e => .err e
        | .ub => .ub
      else traverseLoop rec pos es { s with range := s.range ++ [e], count := s.count + 1 }

/-- `traverse_range` (`tm.inl` 1020-1068); the recursion is as deep as the longest key, `fuel` bounds it. -/
def traverseRange : Nat → Nat → List (Key × V) → Outcome (Node V)
  | 0, _, _ => .ub
  | fuel + 1, pos, l =>
    match traverseLoop (traverseRange fuel (pos + 1)) pos l ⟨none, [], [], 0, 0⟩ with
    | .ok s =>
      if s.count = 0 then .ok ⟨s.val, kidsOfList s.kids⟩
      else match traverseRange fuel (pos + 1) s.range with
        | .ok n => .ok ⟨s.val, kidsOfList (s.kids ++ [(s.char, n)])⟩
        | .err e => .err e
        | .ub => .ub
    | .err e => .err e
    | .ub => .ub

/-- Constructor from entries (`tm.inl` 1309-1344); `fuel` as in `traverseRange`. -/
def ofEntries (cap fuel : Nat) (l : List (Key × V)) : Outcome (Packed V) :=
  match traverseRange fuel 0 l with
  | .ok root => pack cap root
  | .err e => .err e
  | .ub => .ub

/-! ## Lookup -/

/-- Pointer dereference. -/
def rd (pk : List Nat) (i : Nat) : Outcome Nat := Outcome.ofOption pk[i]?

/-- `find_child_pos` (`tm.inl` 217-262): binary search among the child slots that start at `base`. Each
round shrinks the interval, `fuel` bounds the rounds. -/
def findChild (pk : List Nat) (base c : Nat) : Nat → Nat → Nat → Outcome (Option Nat)
  | 0, _, _ => .ub
  | fuel + 1, low, high =>
    let i := (low + high) / 2
    (rd pk (base + 2 * i)).bind fun key =>
      if c = key then .ok (some (base + 2 * i))
      else if low = high then .ok none
      else if high - low = 1 then
        if i = low then findChild pk base c fuel high high else findChild pk base c fuel low low
      else if c < key then findChild pk base c fuel low i
      else findChild pk base c fuel i high

/-- `stack_item` (`tm.hpp` 561-592). -/
structure Item where
  node : Nat
  pos : Nat
  end_ : Nat
  deriving DecidableEq, Repr

/-- `find_prefix_node` (`tm.inl` 264-310) with the callback that pushes stack items; `none` when the key
leaves the trie (a null item is pushed then). -/
def findPath (pk : List Nat) : Key → Nat → List Item → Outcome (Option (List Item))
  | [], p, st => (rd pk (p + 1)).bind fun idx => .ok (some (⟨p, p + 2, p + 2 + idx⟩ :: st))
  | c :: k, p, st =>
    (rd pk (p + 1)).bind fun idx =>
      if idx / 2 = 0 then .ok none
      else (findChild pk (p + 2) c (idx / 2) 0 (idx / 2 - 1)).bind fun r =>
        match r with
        | none => .ok none
        | some cp => (rd pk (cp + 1)).bind fun off =>
          if off ≤ p then findPath pk k (p - off) (⟨p, cp, p + 2 + idx⟩ :: st) else .ub

/-- `packed_iterator_base` (`itr.hpp` 447-475); `cur` is `m_current_value`. -/
structure PIter where
  stack : List Item
  buf : Key
  cur : Nat
  kind : Kind
  deriving DecidableEq, Repr

/-- `cend` (`tm.inl` 1483-1489) and `packed_search_results::end` (`itr.hpp` 823-833) for the node at
offset `r`. -/
def endAt (cap : Nat) (pk : List Nat) (r : Nat) (pre : Key) : Outcome PIter :=
  (rd pk (r + 1)).bind fun idx => .ok ⟨[⟨r, r + 2 + idx, r + 2 + idx⟩], pre, nullValue cap, .end_⟩

/-- `end()`. -/
def pEnd (cap : Nat) (p : Packed V) : Outcome PIter := (rd p.pk 0).bind fun r => endAt cap p.pk r []

/-- Key units at the child positions, bottom of the stack first. -/
def rdKeys (pk : List Nat) : List Item → Outcome Key
  | [] => .ok []
  | s :: st => (rdKeys pk st).bind fun l => (rd pk s.pos).bind fun c => .ok (l ++ [c])

/-- `find` (`tm.inl` 1519-1557). -/
def pFind (cap : Nat) (p : Packed V) (k : Key) : Outcome PIter :=
  if p.vals.isEmpty then pEnd cap p
  else (rd p.pk 0).bind fun r => (findPath p.pk k r []).bind fun res =>
    match res with
    | none => pEnd cap p
    | some [] => pEnd cap p
    | some (si :: st) => (rd p.pk si.node).bind fun v =>
      if v = nullValue cap then pEnd cap p
      else (rdKeys p.pk st).bind fun buf => .ok ⟨si :: st, buf, v, .normal⟩

/-! ## Iteration -/

/-- `push_child_node_to_stack` (`itr.hpp` 481-503). -/
def pushChild (pk : List Nat) (st : List Item) (buf : Key) (cp : Nat) : Outcome (List Item × Key) :=
  match st with
  | [] => .ub
  | top :: _ => (rd pk cp).bind fun c => (rd pk (cp + 1)).bind fun off =>
    if off ≤ top.node then (rd pk (top.node - off + 1)).bind fun idx =>
      .ok (⟨top.node - off, top.node - off + 2, top.node - off + 2 + idx⟩ :: st, buf ++ [c])
    else .ub

/-- Follow first children until a node with a value is reached (`tm.inl` 1473-1478, `itr.hpp` 812-818). -/
def pLeftmost (cap : Nat) (pk : List Nat) : Nat → List Item → Key → Outcome PIter
  | 0, _, _ => .ub
  | fuel + 1, st, buf =>
    match st with
    | [] => .ub
    | top :: _ => (rd pk top.node).bind fun v =>
      if v = nullValue cap then (pushChild pk st buf top.pos).bind fun x => pLeftmost cap pk fuel x.1 x.2
      else .ok ⟨st, buf, v, .normal⟩

/-- `get_root_stack` (`tm.inl` 1491-1509), `get_root_node` (`itr.hpp` 762-776). -/
def rootStack (pk : List Nat) (r : Nat) : Outcome (List Item) :=
  (rd pk (r + 1)).bind fun idx => .ok [⟨r, r + 2, r + 2 + idx⟩]

/-- `cbegin` (`tm.inl` 1439-1481). -/
def pBegin (cap fuel : Nat) (p : Packed V) : Outcome PIter :=
  (rd p.pk 0).bind fun r => (rootStack p.pk r).bind fun st =>
    match st with
    | [] => .ub
    | top :: _ =>
      if top.pos = top.end_ then .ok ⟨st, [], nullValue cap, .end_⟩
      else (pushChild p.pk st [] top.pos).bind fun x => pLeftmost cap p.pk fuel x.1 x.2

/-- `prefix_search` (`tm.inl` 1566-1584): offset of the node, `none` for the null pointer. -/
def pPrefixSearch (p : Packed V) (pre : Key) : Outcome (Option Nat) :=
  if p.vals.isEmpty then .ok none
  else (rd p.pk 0).bind fun r => (findPath p.pk pre r []).bind fun res =>
    match res with
    | some (si :: _) => .ok (some si.node)
    | _ => .ok none

/-- `packed_search_results::begin` (`itr.hpp` 802-821) for a node. -/
def pSearchBegin (cap fuel : Nat) (pk : List Nat) (r : Nat) (pre : Key) : Outcome PIter :=
  (rootStack pk r).bind fun st => pLeftmost cap pk fuel st pre

/-- Upward part of `operator++` (`itr.hpp` 590-621). -/
def pGoUp (pk : List Nat) (cur : Nat) (top : Item) : List Item → Key → Outcome PIter
  | [], buf => .ok ⟨[top], buf, cur, .end_⟩
  | si :: st, buf =>
    let si' : Item := { si with pos := si.pos + 2 }
    if si'.pos ≠ si'.end_ then
      (pushChild pk (si' :: st) buf.dropLast si'.pos).bind fun x => .ok ⟨x.1, x.2, cur, .normal⟩
    else pGoUp pk cur si' st buf.dropLast

/-- `operator++` (`itr.hpp` 577-637). -/
def pInc (cap : Nat) (pk : List Nat) : Nat → PIter → Outcome PIter
  | 0, _ => .ub
  | fuel + 1, it =>
    match it.stack with
    | [] => .ub
    | si :: st => (rd pk (si.node + 1)).bind fun idx =>
      (if idx = 0 then pGoUp pk it.cur si st it.buf
        else (pushChild pk (si :: st) it.buf si.pos).bind fun x => .ok ⟨x.1, x.2, it.cur, .normal⟩).bind fun it' =>
      if it'.kind = .end_ then .ok it'
      else match it'.stack with
        | [] => .ub
        | t :: _ => (rd pk t.node).bind fun v =>
          if v = nullValue cap then pInc cap pk fuel it' else .ok { it' with cur := v }

/-- `descend_to_previous_leaf_node` (`itr.hpp` 505-533). -/
def pDescPrev (pk : List Nat) : Nat → List Item → Key → Outcome (List Item × Key)
  | 0, _, _ => .ub
  | fuel + 1, st, buf =>
    match st with
    | [] => .ub
    | si :: st =>
      if si.pos < 2 then .ub
      else (rd pk (si.pos - 1)).bind fun off => (rd pk (si.pos - 2)).bind fun c =>
        if off ≤ si.node then (rd pk (si.node - off + 1)).bind fun idx =>
          let st' := (⟨si.node - off, si.node - off + 2 + idx, si.node - off + 2 + idx⟩ : Item) ::
            { si with pos := si.pos - 2 } :: st
          if idx = 0 then .ok (st', buf ++ [c]) else pDescPrev pk fuel st' (buf ++ [c])
        else .ub

/-- Result of a descent as iterator. -/
def pLand (pk : List Nat) (x : List Item × Key) : Outcome PIter :=
  match x.1 with
  | [] => .ub
  | t :: _ => (rd pk t.node).bind fun v => .ok ⟨x.1, x.2, v, .normal⟩

/-- Third branch of `operator--` (`itr.hpp` 665-696). -/
def pDecLeaf (cap : Nat) (pk : List Nat) (fuel : Nat) : List Item → Key → Outcome PIter
  | _ :: si :: st, buf => (rd pk si.node).bind fun v =>
    if si.pos ≠ si.node + 2 then (pDescPrev pk fuel (si :: st) buf.dropLast).bind (pLand pk)
    else if v ≠ nullValue cap then .ok ⟨si :: st, buf.dropLast, v, .normal⟩
    else pDecLeaf cap pk fuel (si :: st) buf.dropLast
  | _, _ => .ub

/-- Fourth branch of `operator--` (`itr.hpp` 697-723). -/
def pDecInner (cap : Nat) (pk : List Nat) (fuel : Nat) : List Item → Key → Outcome PIter
  | [_, si], buf => (pDescPrev pk fuel [si] buf.dropLast).bind (pLand pk)
  | _ :: si :: s2 :: st, buf => (rd pk si.node).bind fun v =>
    if v ≠ nullValue cap then .ok ⟨si :: s2 :: st, buf.dropLast, v, .normal⟩
    else pDecInner cap pk fuel (si :: s2 :: st) buf.dropLast
  | _, _ => .ub

/-- `operator--` (`itr.hpp` 645-729). -/
def pDec (cap : Nat) (pk : List Nat) (fuel : Nat) (it : PIter) : Outcome PIter :=
  match it.stack with
  | [] => .ub
  | si :: st => (rd pk si.node).bind fun v => (rd pk (si.node + 1)).bind fun idx =>
    if it.kind = .end_ ∧ v ≠ nullValue cap then .ok { it with kind := .normal, cur := v }
    else if st.isEmpty then (pDescPrev pk fuel [si] it.buf).bind (pLand pk)
    else if idx = 0 then pDecLeaf cap pk fuel it.stack it.buf
    else pDecInner cap pk fuel it.stack it.buf

/-- `operator*` (`itr.hpp` 563-575). -/
def pDeref (vals : List V) (it : PIter) : Option (Key × V) :=
  match it.kind with
  | .normal => vals[it.cur]?.map (it.buf, ·)
  | _ => none

/-- `operator==` of iterators (`itr.hpp` 552-561), `stack_item::operator==` (`tm.hpp` 575-579). -/
def pIterEq (a b : PIter) : Bool :=
  decide (a.kind = b.kind) && (decide (a.kind = .empty) || decide (a.stack.head? = b.stack.head?))

/-- `for (it = first; it != last; ++it) visit(*it)`. -/
def pCollect (cap : Nat) (p : Packed V) (fuel : Nat) : Nat → PIter → PIter → Outcome (List (Key × V))
  | 0, _, _ => .ub
  | n + 1, it, last =>
    if pIterEq it last then .ok []
    else match pDeref p.vals it with
      | none => .ub
      | some kv => (pInc cap p.pk fuel it).bind fun it' =>
        (pCollect cap p fuel n it' last).bind fun l => .ok (kv :: l)

/-- Loop over the whole container. -/
def pIterateAll (cap fuel : Nat) (p : Packed V) : Outcome (List (Key × V)) :=
  (pBegin cap fuel p).bind fun it => (pEnd cap p).bind fun last => pCollect cap p fuel fuel it last

/-- Loop over a search result. -/
def pIterateSearch (cap fuel : Nat) (p : Packed V) (pre : Key) : Outcome (List (Key × V)) :=
  (pPrefixSearch p pre).bind fun res =>
    match res with
    | none => .ok []
    | some r => (pSearchBegin cap fuel p.pk r pre).bind fun it =>
      (endAt cap p.pk r pre).bind fun last => pCollect cap p fuel fuel it last

/-- `size` (`tm.inl` 1586-1590). -/
def pSize (p : Packed V) : Nat := p.vals.length

/-- `operator*` (`itr.hpp` 563-568) as compiled: it does not look at the state of the iterator; the key is
the buffer and the value is `m_value_store[m_current_value]`, undefined if there is no such value. -/
def pDerefRaw (vals : List V) (it : PIter) : Outcome (Key × V) :=
  (Outcome.ofOption vals[it.cur]?).map (it.buf, ·)

/-- Loop of `operator==` (`tm.inl` 1417-1422); the `assert` is not modelled. -/
def pEqLoop [DecidableEq V] (cap : Nat) (p q : Packed V) (fuel : Nat) : Nat → PIter → PIter → PIter → Outcome Bool
  | 0, _, _, _ => .ub
  | n + 1, l, lend, r =>
    if pIterEq l lend then .ok true
    else (pDerefRaw p.vals l).bind fun x => (pDerefRaw q.vals r).bind fun y =>
      if x ≠ y then .ok false
      else (pInc cap p.pk fuel l).bind fun l' => (pInc cap q.pk fuel r).bind fun r' => pEqLoop cap p q fuel n l' lend r'

/-- `operator==` (`tm.inl` 1408-1425). -/
def pEq [DecidableEq V] (cap fuel : Nat) (p q : Packed V) : Outcome Bool :=
  if p.vals.length ≠ q.vals.length then .ok false
  else (pBegin cap fuel p).bind fun l => (pBegin cap fuel q).bind fun r => (pEnd cap p).bind fun lend =>
    pEqLoop cap p q fuel fuel l lend r

/-- `const_node_type::child` (`tm.inl` 1258-1285), from the node at offset `p`. -/
def pChild (pk : List Nat) (p c : Nat) : Outcome (Option Nat) :=
  (rd pk (p + 1)).bind fun idx =>
    if idx = 0 then .ok none
    else (findChild pk (p + 2) c (idx / 2) 0 (idx / 2 - 1)).bind fun r =>
      match r with
      | none => .ok none
      | some cp => (rd pk (cp + 1)).bind fun off => if off ≤ p then .ok (some (p - off)) else .ub

end Mdds.Packed
