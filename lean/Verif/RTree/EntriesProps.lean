import Verif.RTree.Entries
import Verif.RTree.Props
/-!
C51 and C52 for every tree and every configuration, about the calls that return: nothing is asked of
the shape, the boxes or the pointers of the tree, so the calls outside `roomy` and `mild` are included.
-/
namespace Mdds.RTree

open Node

variable {D : Nat} {V : Type}

/-- An insertion that returns stores exactly the new entry and keeps all others, whatever the tree:
splits up to the root and forced reinsertion lose nothing. -/
theorem C51_insert_returns_partial (cfg : Cfg D V) (hD : 0 < D) {t t' : Node D V} {b : Box D} {v : V}
    (h : insert cfg t b v = .ok t') : t'.entries.Perm ((b, v) :: t.entries) ∧ size t' = size t + 1 := by
  unfold insert at h
  cases hi : insertNS cfg (cfg.maxDepth + 2) t b v (some []) with
  | error e => rw [hi] at h; simp [Except.map] at h
  | ok r =>
    rw [hi] at h; simp [Except.map] at h; subst h
    have hp := insertNS_entries cfg hD hi
    exact ⟨hp, by simpa [size] using hp.length_eq⟩

/-- A tree that is not well-formed: an erasure has dissolved directories in a cascade, and the check of
the code itself rejects the result.  An insertion into it returns. -/
example : okAnd (runOps (demoCfg 2 4 2 false) empty (scatter 17 ++ thin 17 5 6)) (fun t =>
    ! integrityN (demoCfg 2 4 2 false) none t &&
    okAnd (insert (demoCfg 2 4 2 false) t (px 3 4) 77) (fun t' =>
      decide (size t = 11) && decide (size t' = 12) && t'.entries.contains (px 3 4, 77))) = true := by
  decide +kernel

/-- An erasure that returns removes exactly the designated entry, whatever the tree, when the parent
pointer of the value is right: dissolved directories are put back with all their entries, at any number
of levels. -/
theorem C52_erase_returns_partial (cfg : Cfg D V) (hD : 0 < D) {t t' : Node D V} {path : List Nat} {b : Box D} {v : V}
    (ha : At t path b v) (hq : parAt t path = some .right) (h : eraseAt cfg t path = .ok t') :
    t.entries.Perm ((b, v) :: t'.entries) ∧ size t = size t' + 1 := by
  have hp := eraseAt_entries cfg hD ha hq h
  exact ⟨hp, by simpa [size] using hp.length_eq⟩

/-- The only other outcome of an erasure that returns: the pointer of the value holds the address of
the root, and all entries stay.  So no erasure ever removes or alters a different entry. -/
theorem C52_erase_returns_or_keeps_partial (cfg : Cfg D V) (hD : 0 < D) {t t' : Node D V} {path : List Nat} {b : Box D}
    {v : V} (ha : At t path b v) (h : eraseAt cfg t path = .ok t') :
    (parAt t path = some .right ∧ t.entries.Perm ((b, v) :: t'.entries)) ∨
      (parAt t path = some .root ∧ t'.entries = t.entries) := by
  obtain ⟨q, hq⟩ := parAt_of_at path ha
  cases q with
  | right => exact Or.inl ⟨hq, eraseAt_entries cfg hD ha hq h⟩
  | root => exact Or.inr ⟨hq, eraseAt_root cfg ha hq h⟩
  | null => exact absurd h (eraseAt_bad cfg ha hq (Or.inl rfl) t')
  | stale => exact absurd h (eraseAt_bad cfg ha hq (Or.inr rfl) t')

/-- An erasure outside `mild` that returns: it dissolves a leaf directory and the directory above it,
which is put back by `insert_dir`. -/
example : okAnd (runOps (demoCfg 2 4 2 false) empty (scatter 16)) (fun t =>
    (searchBox t area .overlap).any fun x =>
      ! mild (demoCfg 2 4 2 false) t x.path && decide (parAt t x.path = some .right) &&
      (match locate x.path [] t with
        | some (n, f :: _ :: _, _) => decide (n.count = 2) && decide (f.count = 2)
        | _ => false) &&
      okAnd (eraseAt (demoCfg 2 4 2 false) t x.path) (fun t' =>
        decide (size t = 16) && decide (size t' = 15) && ! t'.entries.contains (x.box, x.v))) = true := by
  decide +kernel

/-- After each of five erasures in a row, one of them cascading, every directory covers its children and
a search of the whole area finds all that is left. -/
example : (List.range 6).all (fun k => okAnd (runOps (demoCfg 2 4 2 false) empty (scatter 17 ++ thin 17 3 k)) fun t =>
    (dirs t).all (fun d => d.kids.all fun c => d.box.contains c.box) &&
      decide ((searchBox t area .overlap).length = 17 - k)) = true := by
  decide +kernel

end Mdds.RTree
