import Verif.Trie.Kept

/-!
# trie_map: several maps, kept search results and node handles

Source: `/repo/include/mdds/trie_map_def.inl` (`tm.inl`), `trie_map_itr.hpp` (`itr.hpp`), `trie_map.hpp` (`tm.hpp`).

A program has several `trie_map` objects, which it constructs, copies, moves, assigns, swaps and destroys, and
variables of the types `search_results` and `const_node_type`.  Both types hold a pointer to a node.

Simplifications for the whole file:
* the root is a member of the map object; all other nodes are elements of `std::map` objects.  Copying makes new
  elements, moving and swapping a `std::map` hand the elements over.  So a tree has an identity of its own (a number that is
  never used twice); a pointer to the root names the object, a pointer to another node names the tree and the path;
* the value and the flag of the root are kept with the tree, which is where `swap` and the constructors carry them;
* a pointer to a node whose element is removed is `dead`, also if a node is created at the same path again;
* the loop over a result is one call: the map is not changed while the loop runs (for iterators kept across changes see
  `Kept.lean`);
* a move leaves a value in the source, `moved v`, of which nothing is known;
* exceptions of the value type and of memory allocation are not modelled.
-/
namespace Mdds.Trie.Obj
open Mdds.Trie

variable {V : Type}

/-- `const trie_node*` (`tm.hpp` 196-209). -/
inductive Ref where
  | null
  | root (c : Nat)
  | inner (a : Nat) (path : Key)
  | dead
  deriving DecidableEq, Repr

/-- `search_results` (`itr.hpp` 386-402, with the key buffer) and `const_node_type` (`tm.hpp` 239-317, without). -/
structure Var where
  ref : Ref
  search : Option Key
  deriving DecidableEq, Repr

structure World (V : Type) where
  tree : Nat → Option (Node V)
  holds : Nat → Option Nat
  vars : Nat → Option Var
  next : Nat

def World.empty : World V := ⟨fun _ => none, fun _ => none, fun _ => none, 0⟩

/-- The pointer after tree `a` has become `t` (or was destroyed). -/
def Ref.mark (a : Nat) (t : Option (Node V)) : Ref → Ref
  | .inner b p => if b = a then
      match t with
      | some t => if (findNode p t).isSome then .inner b p else .dead
      | none => .dead
    else .inner b p
  | r => r

/-- The pointer after the object `c` was destroyed. -/
def Ref.drop (c : Nat) : Ref → Ref
  | .root d => if d = c then .dead else .root d
  | r => r

/-- Tree `a` becomes `t`. -/
def World.setTree (w : World V) (a : Nat) (t : Option (Node V)) : World V :=
  { w with
    tree := fun b => if b = a then t else w.tree b
    vars := fun i => (w.vars i).map fun x => { x with ref := x.ref.mark a t } }

/-- Object `c` holds tree `a`. -/
def World.setHolds (w : World V) (c : Nat) (a : Option Nat) : World V :=
  { w with holds := fun d => if d = c then a else w.holds d }

/-- A tree with a new identity, held by `c`. -/
def World.fresh (w : World V) (c : Nat) (t : Node V) : World V :=
  { (w.setTree w.next (some t)).setHolds c (some w.next) with next := w.next + 1 }

def World.put (w : World V) (i : Nat) (x : Var) : World V := { w with vars := fun j => if j = i then some x else w.vars j }

/-- Tree of an object. -/
def World.map? (w : World V) (c : Nat) : Option (Nat × Node V) :=
  match w.holds c with
  | some a => (w.tree a).map (a, ·)
  | none => none

/-- The node behind a pointer. -/
def World.node (w : World V) : Ref → Outcome (Node V)
  | .null => .ub
  | .root c => match w.map? c with
    | some (_, t) => .ok t
    | none => .ub
  | .inner a p => match w.tree a with
    | some t => match findNode p t with
      | some n => .ok n
      | none => .ub
    | none => .ub
  | .dead => .ub

/-- Pointer to the node that `find_prefix_node` (`tm.inl` 840-854) returns, starting from `r`; `r` is not null. -/
def World.below (w : World V) (r : Ref) (k : Key) : Outcome Ref :=
  match w.node r with
  | .err e => .err e
  | .ub => .ub
  | .ok n => match k with
    | [] => .ok r
    | _ => match findNode k n with
      | none => .ok .null
      | some _ => match r with
        | .root c => match w.map? c with
          | some (a, _) => .ok (.inner a k)
          | none => .ub
        | .inner a p => .ok (.inner a (p ++ k))
        | r => .ok r

/-- The loop from `begin()` to `end()` of a result (`itr.hpp` 408-440), with enough rounds. -/
def loop (n : Node V) (pre : Key) : Outcome (List (Key × V)) :=
  match searchBegin n pre with
  | .ok it => collect (n.kids.nodes + size n + 1) (n.kids.nodes + size n + 1) it (endIter n pre)
  | .err e => .err e
  | .ub => .ub

inductive Cmd (V : Type) where
  | make (c : Nat)
  | copyNew (c d : Nat)
  | moveNew (c d : Nat)
  | destroy (c : Nat)
  | assign (c d : Nat)
  | assignMove (c d : Nat)
  | swap (c d : Nat)
  | insert (c : Nat) (k : Key) (v : V)
  | erase (c : Nat) (k : Key)
  | clear (c : Nat)
  | size (c : Nat)
  | equal (c d : Nat)
  | search (i c : Nat) (pre : Key)
  | rootNode (i c : Nat)
  | child (i j u : Nat)
  | copyVar (i j : Nat)
  | loop (i : Nat)
  | valid (i : Nat)
  | hasChild (i : Nat)
  | hasValue (i : Nat)
  | value (i : Nat)

inductive Ans (V : Type) where
  | unit
  | bool (b : Bool)
  | num (n : Nat)
  | val (v : V)
  | list (l : List (Key × V))
  deriving DecidableEq, Repr

/-- The root of the source after `trie_node(trie_node&&)` (`tm.inl` 578-581): the children are handed over, the flag stays. -/
def husk (moved : V → V) (t : Node V) : Node V := ⟨t.val.map moved, .nil⟩

/-- `trie_map(trie_map&&)` (`tm.inl` 662-664). -/
def World.moveTo (w : World V) (moved : V → V) (c d : Nat) (a : Nat) (t : Node V) : World V :=
  (w.fresh d (husk moved t)).setHolds c (some a)

/-- The object `c` takes over tree `a`; its old tree goes to a temporary object, which is destroyed
(`tmp.swap(*this)`, `tm.inl` 738-744). -/
def World.replace (w : World V) (c a : Nat) : World V :=
  match w.holds c with
  | some old => (w.setHolds c (some a)).setTree old none
  | none => w

/-- Change of one map. -/
def World.change (w : World V) (c : Nat) (f : Node V → Node V × Ans V) : Outcome (World V × Ans V) :=
  match w.map? c with
  | some (a, t) => .ok (w.setTree a (some (f t).1), (f t).2)
  | none => .ub

/-- A question about the node of a `const_node_type` (`tm.inl` 616-652). -/
def World.ask (w : World V) (i : Nat) (dflt : Outcome (Ans V)) (f : Node V → Outcome (Ans V)) : Outcome (World V × Ans V) :=
  match w.vars i with
  | some ⟨.null, none⟩ => dflt.map (w, ·)
  | some ⟨r, none⟩ => match w.node r with
    | .ok n => (f n).map (w, ·)
    | .err e => .err e
    | .ub => .ub
  | _ => .ub

def Outcome.put (w : World V) (i : Nat) (s : Option Key) : Outcome Ref → Outcome (World V × Ans V)
  | .ok r => .ok (w.put i ⟨r, s⟩, .unit)
  | .err e => .err e
  | .ub => .ub

/-- One call.  Objects are constructed under unused names; using an object or a variable that does not exist is undefined. -/
def step [DecidableEq V] (moved : V → V) (w : World V) : Cmd V → Outcome (World V × Ans V)
  | .make c => match w.holds c with       -- `tm.inl` 654-656
    | none => .ok (w.fresh c Trie.empty, .unit)
    | some _ => .ub
  | .copyNew c d => match w.holds c, w.map? d with     -- `tm.inl` 572-575, 658-660
    | none, some (_, t) => .ok (w.fresh c t, .unit)
    | _, _ => .ub
  | .moveNew c d => match w.holds c, w.map? d with     -- `tm.inl` 577-580, 662-664
    | none, some (a, t) => .ok (w.moveTo moved c d a t, .unit)
    | _, _ => .ub
  | .destroy c => match w.holds c with
    | some a => .ok ({ (w.setTree a none).setHolds c none with
        vars := fun i => ((w.setTree a none).vars i).map fun x => { x with ref := x.ref.drop c } }, .unit)
    | none => .ub
  | .assign c d => match w.holds c, w.map? d with      -- `tm.inl` 738-744 with a copied argument
    | some old, some (_, t) =>
      .ok (((w.fresh c t).setTree old none), .unit)
    | _, _ => .ub
  | .assignMove c d => match w.holds c, w.map? d with  -- `tm.inl` 738-744 with a moved argument
    | some _, some (a, t) => .ok ((w.fresh d (husk moved t)).replace c a, .unit)
    | _, _ => .ub
  | .swap c d => match w.holds c, w.holds d with       -- `tm.inl` 584-589, 752-756
    | some a, some b => .ok ((w.setHolds c (some b)).setHolds d (some a), .unit)
    | _, _ => .ub
  | .insert c k v => w.change c fun t => (Trie.insert k v t, .unit)
  | .erase c k => w.change c fun t => ((Trie.erase k t).1, .bool (Trie.erase k t).2)
  | .clear c => w.change c fun t => (Trie.clear t, .unit)
  | .size c => match w.map? c with
    | some (_, t) => .ok (w, .num (Trie.size t))
    | none => .ub
  | .equal c d => match w.map? c, w.map? d with
    | some (_, t), some (_, u) => .ok (w, .bool (beq t u))
    | _, _ => .ub
  | .search i c pre => Outcome.put w i (some pre) (w.below (.root c) pre)     -- `tm.inl` 976-991
  | .rootNode i c => match w.holds c with             -- `tm.inl` 758-762
    | some _ => .ok (w.put i ⟨.root c, none⟩, .unit)
    | none => .ub
  | .child i j u => match w.vars j with               -- `tm.inl` 640-652
    | some ⟨.null, none⟩ => .ok (w.put i ⟨.null, none⟩, .unit)
    | some ⟨r, none⟩ => Outcome.put w i none (w.below r [u])
    | _ => .ub
  | .copyVar i j => match w.vars j with
    | some x => .ok (w.put i x, .unit)
    | none => .ub
  | .loop i => match w.vars i with
    | some ⟨.null, some _⟩ => .ok (w, .list [])
    | some ⟨r, some pre⟩ => match w.node r with
      | .ok n => (loop n pre).map fun l => (w, .list l)
      | .err e => .err e
      | .ub => .ub
    | _ => .ub
  | .valid i => match w.vars i with                   -- `tm.inl` 610-614
    | some ⟨r, none⟩ => .ok (w, .bool (decide (r ≠ .null)))
    | _ => .ub
  | .hasChild i => w.ask i (.ok (.bool false)) fun n => .ok (.bool !n.kids.isEmpty)
  | .hasValue i => w.ask i (.ok (.bool false)) fun n => .ok (.bool n.val.isSome)
  | .value i => w.ask i .ub fun n => match n.val with    -- a value that was erased or never set is not an answer
    | some v => .ok (.val v)
    | none => .err .general

/-- A program. -/
def run [DecidableEq V] (moved : V → V) (w : World V) : List (Cmd V) → Outcome (World V × List (Ans V))
  | [] => .ok (w, [])
  | c :: cs => match step moved w c with
    | .ok (w', a) => match run moved w' cs with
      | .ok (w'', as) => .ok (w'', a :: as)
      | .err e => .err e
      | .ub => .ub
    | .err e => .err e
    | .ub => .ub

/-- The answers alone. -/
def answers [DecidableEq V] (moved : V → V) (p : List (Cmd V)) : Outcome (List (Ans V)) :=
  match run moved World.empty p with
  | .ok (_, as) => .ok as
  | .err e => .err e
  | .ub => .ub

end Mdds.Trie.Obj
