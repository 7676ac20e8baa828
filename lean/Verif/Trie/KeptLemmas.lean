import Verif.Trie.KeptSpec
import Verif.Trie.Props

/-! # trie_map: kept iterators follow the iterators of `Model.lean` while the map stays the same -/
namespace Mdds.Trie.Kept
open Mdds.Trie

variable {V : Type}

/-- The stack of references that belongs to a stack of nodes and indices. -/
def kept : Stack V → Key → List Item
  | [], _ => []
  | (n, i) :: st, buf => ⟨.live buf, posAt n.kids i⟩ :: kept st buf.dropLast

theorem Valid.findNode {root : Node V} {n : Node V} {j : Nat} {st : Stack V} {buf : Key} (hw : root.kids.WF)
    (h : Valid root [] ((n, j) :: st) buf) : Trie.findNode buf root = some n := by
  generalize hs : (n, j) :: st = s at h
  induction h generalizing n j st with
  | base i => cases hs; rfl
  | @push p i st' buf c m j' h hg ih =>
    cases hs
    rw [findNode_append, ih rfl]
    show Trie.findNode [c] p = some _
    have hpw : p.kids.WF := h.wf hw
    simp only [Trie.findNode]
    rw [Kids.find?_of_get hpw hg]

theorem node_valid {root : Node V} {n : Node V} {j : Nat} {st : Stack V} {buf : Key} (hw : root.kids.WF)
    (h : Valid root [] ((n, j) :: st) buf) : node root (.live buf) = .ok n := by
  simp only [node, Valid.findNode hw h]

theorem idxOf?_of_get {c : Nat} {n : Node V} : {ks : Kids V} → {i : Nat} → ks.WF → ks.get? i = some (c, n) → ks.idxOf? c = some i
  | .nil, _, _, h => by simp [Kids.get?] at h
  | .cons d v k r, 0, _, h => by
    simp only [Kids.get?, Option.some.injEq, Prod.mk.injEq] at h
    simp [Kids.idxOf?, h.1]
  | .cons d v k r, i + 1, hw, h => by
    simp only [Kids.get?] at h
    have hg := Kids.allGt_get hw.2.2.1 h
    simp only at hg
    unfold Kids.idxOf?
    rw [if_neg (by omega), idxOf?_of_get hw.2.1 h]
    rfl

theorem rank_posAt {ks : Kids V} (hw : ks.WF) {i : Nat} (hi : i ≤ ks.length) : rank ks (posAt ks i) = some i := by
  unfold posAt
  cases h : ks.get? i with
  | none => simp only [rank]; have := Kids.get?_none h; congr 1; omega
  | some x =>
    obtain ⟨c, n⟩ := x
    simp only [rank]
    exact idxOf?_of_get hw h

theorem posAt_inj {ks : Kids V} (hw : ks.WF) {i j : Nat} (hi : i ≤ ks.length) (hj : j ≤ ks.length)
    (h : posAt ks i = posAt ks j) : i = j := by
  have := rank_posAt hw hi
  rw [h, rank_posAt hw hj] at this
  exact (Option.some.inj this).symm

theorem posAt_ne_dead (ks : Kids V) (i : Nat) : posAt ks i ≠ .dead := by
  unfold posAt
  split <;> simp

theorem posAt_get {ks : Kids V} {i c : Nat} {n : Node V} (h : ks.get? i = some (c, n)) : posAt ks i = .child c := by
  unfold posAt; rw [h]

theorem posAt_none {ks : Kids V} {i : Nat} (h : ks.get? i = none) : posAt ks i = .end_ := by
  unfold posAt; rw [h]

theorem pushChild_ok {root p n : Node V} {i : Nat} {st : Stack V} {buf : Key} {c : Nat} (hw : root.kids.WF)
    (h : Valid root [] ((p, i) :: st) buf) (hg : p.kids.get? i = some (c, n)) :
    pushChild root (.live buf) c = .ok ⟨.live (buf ++ [c]), posAt n.kids 0⟩ := by
  simp only [pushChild, Ptr.child, node_valid hw (Valid.push 0 h hg), first]

theorem kept_cons (n : Node V) (i : Nat) (st : Stack V) (buf : Key) :
    kept ((n, i) :: st) buf = ⟨.live buf, posAt n.kids i⟩ :: kept st buf.dropLast := rfl

theorem kept_push (n p : Node V) (j i : Nat) (st : Stack V) (buf : Key) (c : Nat) :
    kept ((n, j) :: (p, i) :: st) (buf ++ [c]) =
      ⟨.live (buf ++ [c]), posAt n.kids j⟩ :: ⟨.live buf, posAt p.kids i⟩ :: kept st buf.dropLast := by
  rw [kept_cons, kept_cons, List.dropLast_concat]

/-- The walk that belongs to an iterator of `Model.lean`. -/
def walk (it : Iter V) : Walk := ⟨kept it.stack it.buf, it.buf, it.kind⟩

theorem goUp_kept {root : Node V} (hw : root.kids.WF) : (st : Stack V) → (n : Node V) → (j : Nat) → (buf : Key) →
    Valid root [] ((n, j) :: st) buf →
    goUp root ⟨.live buf, posAt n.kids j⟩ (kept st buf.dropLast) buf = .ok (walk (Trie.goUp (n, j) st buf))
  | [], n, j, buf, hv => by
    obtain ⟨h1, h2⟩ := hv.root_of_single
    simp only [kept, goUp, Trie.goUp, walk]
  | (p, i) :: st, n, j, buf, hv => by
    cases hv with
    | @push _ _ _ buf0 c _ _ hv hg =>
    rw [List.dropLast_concat, kept_cons]
    unfold goUp Trie.goUp
    simp only [node_valid hw hv, List.dropLast_concat]
    have hpw := hv.wf hw
    have hlt := Kids.get?_lt hg
    have hnext : next p.kids (posAt p.kids i) = .ok (posAt p.kids (i + 1)) := by
      unfold next
      rw [rank_posAt hpw (by omega)]
      simp only
      rw [if_pos hlt]
    rw [hnext]
    cases hn : p.kids.get? (i + 1) with
    | some x =>
      obtain ⟨d, ch⟩ := x
      simp only [posAt_get hn]
      rw [pushChild_ok hw (hv.repos (i + 1)) hn]
      simp only [walk]
      rw [kept_push, posAt_get hn]
    | none =>
      simp only [posAt_none hn]
      have := goUp_kept hw st p (i + 1) buf0 (hv.repos (i + 1))
      rw [posAt_none hn] at this
      exact this

theorem goUp_valid {root : Node V} : (st : Stack V) → (n : Node V) → (j : Nat) → (buf : Key) →
    Valid root [] ((n, j) :: st) buf → (Trie.goUp (n, j) st buf).kind = .end_ ∨
      ∃ m st', (Trie.goUp (n, j) st buf).stack = (m, 0) :: st' ∧ Valid root [] ((m, 0) :: st') (Trie.goUp (n, j) st buf).buf
  | [], n, j, buf, hv => Or.inl rfl
  | (p, i) :: st, n, j, buf, hv => by
    cases hv with
    | @push _ _ _ buf0 c _ _ hv hg =>
    unfold Trie.goUp
    simp only [List.dropLast_concat]
    cases hn : p.kids.get? (i + 1) with
    | some x =>
      obtain ⟨d, ch⟩ := x
      exact Or.inr ⟨ch, (p, i + 1) :: st, rfl, .push 0 (hv.repos (i + 1)) hn⟩
    | none => exact goUp_valid st p (i + 1) buf0 (hv.repos (i + 1))

theorem incLoop_kept {root : Node V} (hw : root.kids.WF) (fuel : Nat) (n : Node V) (st : Stack V) (buf : Key)
    (kind : Kind) (hv : Valid root [] ((n, 0) :: st) buf) :
    incLoop root fuel (kept ((n, 0) :: st) buf) buf = (Trie.inc fuel ⟨(n, 0) :: st, buf, kind⟩).map walk := by
  induction fuel generalizing n st buf kind with
  | zero => simp [kept, incLoop, Trie.inc, Outcome.map]
  | succ fuel ih =>
    have fin : ∀ it' : Iter V, (it'.kind = .end_ ∨ ∃ m st', it'.stack = (m, 0) :: st' ∧ Valid root [] ((m, 0) :: st') it'.buf) →
        (if (walk it').kind = .end_ then Outcome.ok (walk it')
          else match (walk it').stack with
            | [] => .ub
            | top :: _ => match node root top.node with
              | .err e => .err e
              | .ub => .ub
              | .ok m => if m.val.isSome then .ok (walk it') else incLoop root fuel (walk it').stack (walk it').buf) =
          Outcome.map walk (if it'.kind = .end_ then .ok it'
            else match it'.stack with
              | [] => .ub
              | (m, _) :: _ => if m.val.isSome then .ok it' else Trie.inc fuel it') := by
      rintro it' (h | ⟨m, st', h1, h2⟩)
      · rw [if_pos h, if_pos (show (walk it').kind = .end_ from h)]; rfl
      · obtain ⟨stk, b, kd⟩ := it'
        simp only at h1 h2
        subst h1
        by_cases hk : kd = .end_
        · rw [if_pos hk, if_pos (show (walk ⟨(m, 0) :: st', b, kd⟩).kind = .end_ from hk)]; rfl
        · rw [if_neg hk, if_neg (show (walk ⟨(m, 0) :: st', b, kd⟩).kind ≠ .end_ from hk)]
          simp only [walk, kept_cons, node_valid hw h2]
          by_cases hm : m.val.isSome = true
          · rw [if_pos hm, if_pos hm]; rfl
          · rw [if_neg hm, if_neg hm]
            have := ih m st' b kd h2
            rw [kept_cons] at this
            rw [this]
    rw [kept_cons]
    unfold incLoop Trie.inc
    simp only [node_valid hw hv]
    cases hk : n.kids with
    | nil =>
      have hg := goUp_kept hw st n 0 buf hv
      rw [hk] at hg
      have : incRound root ⟨.live buf, posAt (Kids.nil : Kids V) 0⟩ (kept st buf.dropLast) buf n = .ok (walk (Trie.goUp (n, 0) st buf)) := by
        unfold incRound; rw [hk]; exact hg
      simp only [this]
      exact fin _ (goUp_valid st n 0 buf hv)
    | cons c v k r =>
      have hg : n.kids.get? 0 = some (c, ⟨v, k⟩) := by rw [hk]; rfl
      have : incRound root ⟨.live buf, posAt (.cons c v k r) 0⟩ (kept st buf.dropLast) buf n =
          .ok (walk ⟨(⟨v, k⟩, 0) :: (n, 0) :: st, buf ++ [c], .normal⟩) := by
        unfold incRound; rw [hk]
        simp only [pushChild_ok hw hv hg, walk, kept_push, hk]
      simp only [this]
      exact fin ⟨(⟨v, k⟩, 0) :: (n, 0) :: st, buf ++ [c], .normal⟩ (Or.inr ⟨_, _, rfl, .push 0 hv hg⟩)

/-! ### decrement -/

def walkP (x : Stack V × Key) : List Item × Key := (kept x.1 x.2, x.2)

theorem posAt_length (ks : Kids V) : posAt ks ks.length = .end_ := posAt_none (Kids.get?_length ks)

theorem descPrev_kept {root : Node V} (hw : root.kids.WF) (fuel : Nat) (n : Node V) (i : Nat) (st : Stack V) (buf : Key)
    (hv : Valid root [] ((n, i) :: st) buf) (hi : i ≤ n.kids.length) :
    descPrev root fuel (kept ((n, i) :: st) buf) buf = (Trie.descPrev fuel ((n, i) :: st) buf).map walkP := by
  induction fuel generalizing n i st buf with
  | zero => simp [kept, descPrev, Trie.descPrev, Outcome.map]
  | succ fuel ih =>
    rw [kept_cons]
    unfold descPrev Trie.descPrev
    have hnw := hv.wf hw
    simp only [node_valid hw hv]
    cases i with
    | zero => simp [prev, rank_posAt hnw hi, Outcome.map]
    | succ j =>
      obtain ⟨⟨c, ch⟩, hg⟩ := Kids.get?_some_of_lt (ks := n.kids) (i := j) (by omega)
      have hp : prev n.kids (posAt n.kids (j + 1)) = .ok (.child c) := by
        simp only [prev, rank_posAt hnw hi, posAt_get hg]
      have hv' : Valid root [] ((ch, ch.kids.length) :: (n, j) :: st) (buf ++ [c]) := .push _ (hv.repos j) hg
      simp only [hp, hg, Ptr.child, node_valid hw hv']
      have hkept : kept ((ch, ch.kids.length) :: (n, j) :: st) (buf ++ [c]) =
          ⟨.live (buf ++ [c]), .end_⟩ :: ⟨.live buf, .child c⟩ :: kept st buf.dropLast := by
        rw [kept_push, posAt_length, posAt_get hg]
      by_cases he : ch.kids.isEmpty = true
      · rw [if_pos he, if_pos he]
        simp only [Outcome.map, walkP, hkept]
      · rw [if_neg he, if_neg he, ← hkept]
        exact ih ch ch.kids.length ((n, j) :: st) (buf ++ [c]) hv' (Nat.le_refl _)

theorem walkOf_map (o : Outcome (Stack V × Key)) : walkOf (o.map walkP) = Outcome.map walk (match o with
      | .ok (st', buf') => .ok ⟨st', buf', .normal⟩
      | .err e => .err e
      | .ub => .ub) := by
  cases o <;> rfl

theorem decLeaf_kept {root : Node V} (hw : root.kids.WF) (fuel : Nat) : (st : Stack V) → (n : Node V) → (j : Nat) → (buf : Key) →
    Valid root [] ((n, j) :: st) buf →
    decLeaf root fuel (kept ((n, j) :: st) buf) buf = (Trie.decLeaf fuel ((n, j) :: st) buf).map walk
  | [], n, j, buf, _ => by simp [kept, decLeaf, Trie.decLeaf, Outcome.map]
  | (p, i) :: st, n, j, buf, hv => by
    cases hv with
    | @push _ _ _ buf0 c _ _ hv hg =>
    have hpw := hv.wf hw
    have hlt := Kids.get?_lt hg
    rw [kept_push]
    unfold decLeaf Trie.decLeaf
    simp only [node_valid hw hv, List.dropLast_concat]
    rw [if_neg (posAt_ne_dead _ _)]
    have hfirst : posAt p.kids i ≠ first p.kids ↔ i ≠ 0 := by
      unfold first
      constructor
      · rintro h rfl; exact h rfl
      · intro h h'; exact h (posAt_inj hpw (by omega) (by omega) h')
    by_cases hi : i ≠ 0
    · rw [if_pos (hfirst.2 hi), if_pos hi]
      have := descPrev_kept hw fuel p i st buf0 hv (by omega)
      rw [kept_cons] at this
      rw [this]
      exact walkOf_map _
    · rw [if_neg (fun h => hi (hfirst.1 h)), if_neg hi]
      by_cases hp : p.val.isSome = true
      · rw [if_pos hp, if_pos hp]
        simp only [Outcome.map, walk, kept_cons]
      · rw [if_neg hp, if_neg hp]
        exact decLeaf_kept hw fuel st p i buf0 hv

theorem decInner_kept {root : Node V} (hw : root.kids.WF) (fuel : Nat) : (st : Stack V) → (n : Node V) → (j : Nat) → (buf : Key) →
    Valid root [] ((n, j) :: st) buf →
    decInner root fuel (kept ((n, j) :: st) buf) buf = (Trie.decInner fuel ((n, j) :: st) buf).map walk
  | [], n, j, buf, _ => by simp [kept, decInner, Trie.decInner, Outcome.map]
  | [(p, i)], n, j, buf, hv => by
    cases hv with
    | @push _ _ _ buf0 c _ _ hv hg =>
    have hlt := Kids.get?_lt hg
    rw [kept_push]
    simp only [kept, decInner, Trie.decInner, List.dropLast_concat]
    have := descPrev_kept hw fuel p i [] buf0 hv (by omega)
    rw [kept_cons] at this
    simp only [kept] at this
    rw [this]
    exact walkOf_map _
  | (p, i) :: (x, k) :: st, n, j, buf, hv => by
    cases hv with
    | @push _ _ _ buf0 c _ _ hv hg =>
    rw [kept_push, kept_cons]
    unfold decInner Trie.decInner
    simp only [node_valid hw hv, List.dropLast_concat]
    by_cases hp : p.val.isSome = true
    · rw [if_pos hp, if_pos hp]
      simp only [Outcome.map, walk, kept_cons]
    · rw [if_neg hp, if_neg hp]
      exact decInner_kept hw fuel ((x, k) :: st) p i buf0 hv

/-- `--` of the references follows `--` of `Model.lean`. -/
theorem decWalk_kept {root : Node V} (hw : root.kids.WF) (n : Node V) (i : Nat) (st : Stack V) (it : It)
    (hs : it.stack = kept ((n, i) :: st) it.buf) (hv : Valid root [] ((n, i) :: st) it.buf) (hi : i ≤ n.kids.length) :
    decWalk root it = (Trie.dec (rounds root) ⟨(n, i) :: st, it.buf, it.kind⟩).map walk := by
  obtain ⟨stk, buf, key, value, kind⟩ := it
  simp only at hs hv
  subst hs
  unfold decWalk Trie.dec
  simp only
  have hemp : (kept st buf.dropLast).isEmpty = st.isEmpty := by cases st <;> rfl
  rw [kept_cons]
  simp only [node_valid hw hv, hemp]
  split
  · simp only [Outcome.map, walk, kept_cons]
  split
  · rename_i h1 h2
    have : st = [] := by cases st <;> simp_all
    subst this
    have := descPrev_kept hw (rounds root) n i [] buf hv hi
    rw [kept_cons] at this
    rw [this]
    exact walkOf_map _
  split
  · have := decLeaf_kept hw (rounds root) st n i buf hv
    rw [kept_cons] at this
    exact this
  · have := decInner_kept hw (rounds root) st n i buf hv
    rw [kept_cons] at this
    exact this

end Mdds.Trie.Kept
