import Verif.Mtv.IterLemmas

/-!
# multi_type_vector iterators: every step does what it has to do
-/

namespace Mdds.Mtv.Iter
open Mdds

variable {α : Type} [DecidableEq α]

/-! ### Iterators -/

/-- A concrete iterator stands for an abstract one. -/
structure RepIt (S : Nat → Option (St α)) (n : Nat) (x : It) (y : SIt) : Prop where
  rev : x.rev = y.rev
  const : x.const = y.const
  owner : x.node.parent = y.owner
  arr : x.arr = y.at_.map Prod.fst
  low : ∀ a k, y.at_ = some (a, k) → a < n
  pos : ∀ a k, y.at_ = some (a, k) → x.pos = .all k ∧ x.node.idx = if y.rev then 0 else k
  live : ∀ a k s, y.at_ = some (a, k) → S a = some s →
    x.end_ = .all (lastIdx s y.rev) ∧ k ≤ s.blocks.length ∧ (y.seen = none ↔ k = lastIdx s y.rev)
  seen : ∀ i, y.seen = some i → x.node.info = i

omit [DecidableEq α] in
theorem lastIdx_len {s s' : St α} (h : s'.blocks.length = s.blocks.length) (rev : Bool) : lastIdx s' rev = lastIdx s rev := by
  simp [lastIdx, h]

omit [DecidableEq α] in
theorem RepIt.mono {S S' : Nat → Option (St α)} {n n' : Nat} {x : It} {y : SIt} (h : RepIt S n x y) (hn : n ≤ n')
    (hS : ∀ a s', a < n → S' a = some s' → ∃ s, S a = some s ∧ s'.blocks.length = s.blocks.length) : RepIt S' n' x y := by
  refine ⟨h.rev, h.const, h.owner, h.arr, fun a k e => Nat.lt_of_lt_of_le (h.low a k e) hn, h.pos, fun a k s' e e' => ?_, h.seen⟩
  obtain ⟨s, hs, hl⟩ := hS a s' (h.low a k e) e'
  have := h.live a k s e hs
  rw [lastIdx_len hl, hl]
  exact this

omit [DecidableEq α] in
theorem look_map {τ : Type} (s : St α) (f : Blk α → τ) (rev : Bool) (k : Nat) :
    look rev (s.blocks.map f) k = (blockAt s rev k).map f := by
  cases rev
  · simp [look, blockAt]
  · cases k <;> simp [look, blockAt]

omit [DecidableEq α] in
theorem blockAt_none {s : St α} {rev : Bool} {k : Nat} (hk : k ≤ s.blocks.length) :
    blockAt s rev k = none ↔ k = lastIdx s rev := by
  cases rev
  · simp [blockAt, lastIdx]; omega
  · cases k with
    | zero => simp [blockAt, lastIdx]
    | succ k => simp [blockAt, lastIdx]; omega

omit [DecidableEq α] in
theorem infoAt_none {s : St α} {rev : Bool} {k : Nat} (hk : k ≤ s.blocks.length) :
    infoAt s rev k = none ↔ k = lastIdx s rev := by
  rw [← blockAt_none hk]; simp [infoAt]

omit [DecidableEq α] in
/-- Reading the node where there is a block. -/
theorem update_ok {s : St α} {x : It} {k : Nat} {b : Blk α} (hp : x.pos = .all k) (hb : blockAt s x.rev k = some b) :
    x.update s = some { x with node := { x.node with info := b.info } } := by
  simp only [It.update, look_map, hp, Cur.all, hb]
  rfl

omit [DecidableEq α] in
/-- An iterator built at index `k`. -/
theorem make_ok {S : Nat → Option (St α)} {n a k idx : Nat} {s : St α} (hs : S a = some s) (ha : a < n) (rev const : Bool)
    (owner : Option Nat) (hk : k ≤ s.blocks.length) (hi : idx = if rev then 0 else k) :
    ∃ it, It.make s rev const owner idx a (.all k) (.all (lastIdx s rev)) = some it ∧
      RepIt S n it (place s rev const owner a k) := by
  have key : ∀ nd : Node, nd.parent = owner → nd.idx = idx → (∀ i, infoAt s rev k = some i → nd.info = i) →
      RepIt S n ⟨rev, const, nd, some a, .all k, .all (lastIdx s rev)⟩ (place s rev const owner a k) := by
    intro nd h1 h2 h3
    refine ⟨rfl, rfl, h1, rfl, ?_, ?_, ?_, h3⟩
    · intro b j e; simp only [place, Option.some.injEq, Prod.mk.injEq] at e; omega
    · intro b j e; simp only [place, Option.some.injEq, Prod.mk.injEq] at e
      obtain ⟨rfl, rfl⟩ := e
      exact ⟨rfl, by rw [h2, hi]; rfl⟩
    · intro b j s' e e'; simp only [place, Option.some.injEq, Prod.mk.injEq] at e
      obtain ⟨rfl, rfl⟩ := e
      rw [hs] at e'; cases e'
      exact ⟨rfl, hk, infoAt_none hk⟩
  by_cases hl : k = lastIdx s rev
  · refine ⟨_, if_pos (by rw [hl]), key _ rfl rfl ?_⟩
    intro i h
    rw [(infoAt_none hk).2 hl] at h; cases h
  · have hne : Cur.all k ≠ Cur.all (lastIdx s rev) := by simpa [Cur.all] using hl
    cases hb : blockAt s rev k with
    | none => exact absurd ((blockAt_none hk).1 hb) hl
    | some b =>
      refine ⟨_, (if_neg hne).trans (update_ok rfl hb), key _ rfl rfl ?_⟩
      intro i h
      simp only [infoAt, hb, Option.map_some, Option.some.injEq] at h
      exact h

omit [DecidableEq α] in
theorem begin_ok {S : Nat → Option (St α)} {n a : Nat} {s : St α} (hs : S a = some s) (ha : a < n) (rev const : Bool) (c : Nat) :
    ∃ it, makeBegin s rev const c a = some it ∧ RepIt S n it (place s rev const (some c) a (firstIdx s rev)) := by
  cases rev
  · exact make_ok hs ha false const (some c) (k := 0) (by omega) rfl
  · exact make_ok hs ha true const (some c) (k := s.blocks.length) (by omega) rfl

omit [DecidableEq α] in
theorem end_ok {S : Nat → Option (St α)} {n a : Nat} {s : St α} (hs : S a = some s) (ha : a < n) (rev const : Bool) (c : Nat) :
    ∃ it, makeEnd s rev const c a = some it ∧ RepIt S n it (place s rev const (some c) a (lastIdx s rev)) := by
  cases rev
  · exact make_ok hs ha false const (some c) (k := s.blocks.length) (by omega) rfl
  · exact make_ok hs ha true const (some c) (k := 0) (by omega) rfl

omit [DecidableEq α] in
theorem get_ok {S : Nat → Option (St α)} {n a : Nat} {s : St α} (hs : S a = some s) (ha : a < n) (const : Bool) (c : Nat)
    {k : Nat} (hk : k ≤ s.blocks.length) :
    ∃ it, getIterator s const c a k = some it ∧ RepIt S n it (place s false const (some c) a k) := by
  obtain ⟨it, h1, h2⟩ := make_ok hs ha false const (some c) hk rfl
  exact ⟨it, (if_pos hk).trans h1, h2⟩

omit [DecidableEq α] in
theorem cur_inc {rev : Bool} {s : St α} {k : Nat} (hk : k ≤ s.blocks.length) (hl : k ≠ lastIdx s rev) :
    (Cur.all k).inc rev s.blocks.length = some (.all (fwd rev k)) ∧ fwd rev k ≤ s.blocks.length := by
  cases rev
  · have : k < s.blocks.length := by simp [lastIdx] at hl; omega
    simp [Cur.inc, stepUp, Cur.all, fwd, this]; omega
  · have : k ≠ 0 := by simpa [lastIdx] using hl
    simp [Cur.inc, stepUp, Cur.all, fwd, this]; omega

omit [DecidableEq α] in
theorem cur_dec {rev : Bool} {s : St α} {k : Nat} (hk : k ≤ s.blocks.length) (hl : k ≠ firstIdx s rev) :
    (Cur.all k).dec rev s.blocks.length = some (.all (bwd rev k)) ∧ bwd rev k ≤ s.blocks.length ∧ bwd rev k ≠ lastIdx s rev := by
  cases rev
  · have : k ≠ 0 := by simpa [firstIdx] using hl
    simp [Cur.dec, stepDown, Cur.all, bwd, this, lastIdx]; omega
  · have : k < s.blocks.length := by simp [firstIdx] at hl; omega
    simp [Cur.dec, stepDown, Cur.all, bwd, this, lastIdx]; omega

omit [DecidableEq α] in
/-- A moved iterator, from its parts. -/
theorem moved_ok {S : Nat → Option (St α)} {n a k : Nat} {s : St α} {x : It} {y : SIt} (h : RepIt S n x y)
    (ha : a < n) (harr : x.arr = some a) (hs : S a = some s) (hk : k ≤ s.blocks.length) (he : x.end_ = .all (lastIdx s y.rev))
    (i : Info) (hi : ∀ j, infoAt s y.rev k = some j → i = j) (idx : Nat) (hidx : idx = if y.rev then 0 else k) :
    RepIt S n ⟨y.rev, x.const, ⟨i, x.node.parent, idx⟩, x.arr, .all k, x.end_⟩ (place s y.rev y.const y.owner a k) := by
  refine ⟨rfl, h.const, h.owner, harr, ?_, ?_, ?_, hi⟩
  · intro b j e; simp only [place, Option.some.injEq, Prod.mk.injEq] at e; omega
  · intro b j e; simp only [place, Option.some.injEq, Prod.mk.injEq] at e
    obtain ⟨rfl, rfl⟩ := e
    exact ⟨rfl, hidx⟩
  · intro b j s' e e'; simp only [place, Option.some.injEq, Prod.mk.injEq] at e
    obtain ⟨rfl, rfl⟩ := e
    rw [hs] at e'; cases e'
    exact ⟨he, hk, infoAt_none hk⟩

omit [DecidableEq α] in
theorem inc_ok {S : Nat → Option (St α)} {n a k : Nat} {s : St α} {x : It} {y : SIt} (h : RepIt S n x y)
    (hy : y.at_ = some (a, k)) (hs : S a = some s) (hn : y.seen ≠ none) :
    ∃ it, x.inc s = some it ∧ RepIt S n it (place s y.rev y.const y.owner a (fwd y.rev k)) := by
  obtain ⟨he, hk, hl⟩ := h.live a k s hy hs
  obtain ⟨hp, hidx⟩ := h.pos a k hy
  have harr : x.arr = some a := by rw [h.arr, hy]; rfl
  obtain ⟨hc, hk'⟩ := cur_inc hk (fun e => hn (hl.2 e))
  have hidx' : (if x.rev then x.node else { x.node with idx := x.node.idx + 1 }).idx = if y.rev then 0 else fwd y.rev k := by
    rw [h.rev]
    cases hr : y.rev <;> simp [hidx, hr, fwd]
  have hpar : (if x.rev then x.node else { x.node with idx := x.node.idx + 1 }).parent = x.node.parent := by split <;> rfl
  simp only [It.inc, hp, h.rev, hc, Option.bind_eq_bind, Option.bind_some]
  rw [h.rev] at hidx' hpar
  by_cases hend : fwd y.rev k = lastIdx s y.rev
  · refine ⟨_, if_pos (by rw [he, hend]), ?_⟩
    have := moved_ok h (h.low a k hy) harr hs hk' he (if y.rev then x.node else { x.node with idx := x.node.idx + 1 }).info
      (by intro j e; rw [(infoAt_none hk').2 hend] at e; cases e) _ hidx'
    rw [← hpar] at this
    exact this
  · have hne : Cur.all (fwd y.rev k) ≠ x.end_ := by rw [he]; simpa [Cur.all] using hend
    cases hb : blockAt s y.rev (fwd y.rev k) with
    | none => exact absurd ((blockAt_none hk').1 hb) hend
    | some b =>
      refine ⟨_, (if_neg hne).trans (update_ok (k := fwd y.rev k) rfl (by simp only [h.rev]; exact hb)), ?_⟩
      have := moved_ok h (h.low a k hy) harr hs hk' he b.info
        (by intro j e; simp only [infoAt, hb, Option.map_some, Option.some.injEq] at e; exact e) _ hidx'
      rw [← hpar] at this
      exact this

omit [DecidableEq α] in
theorem dec_ok {S : Nat → Option (St α)} {n a k : Nat} {s : St α} {x : It} {y : SIt} (h : RepIt S n x y)
    (hy : y.at_ = some (a, k)) (hs : S a = some s) (hn : k ≠ firstIdx s y.rev) :
    ∃ it, x.dec s = some it ∧ RepIt S n it (place s y.rev y.const y.owner a (bwd y.rev k)) := by
  obtain ⟨he, hk, hl⟩ := h.live a k s hy hs
  obtain ⟨hp, hidx⟩ := h.pos a k hy
  have harr : x.arr = some a := by rw [h.arr, hy]; rfl
  obtain ⟨hc, hk', hend⟩ := cur_dec hk hn
  simp only [It.dec, hp, h.rev, hc, Option.bind_eq_bind, Option.bind_some]
  cases hb : blockAt s y.rev (bwd y.rev k) with
  | none => exact absurd ((blockAt_none hk').1 hb) hend
  | some b =>
    rw [update_ok (k := bwd y.rev k) rfl (by simp only [h.rev]; exact hb)]
    refine ⟨_, rfl, ?_⟩
    have := fun idx hi => moved_ok h (h.low a k hy) harr hs hk' he b.info
        (by intro j e; simp only [infoAt, hb, Option.map_some, Option.some.injEq] at e; exact e) idx hi
    cases hr : y.rev
    · have := this (x.node.idx - 1) (by rw [hidx, hr]; simp [bwd])
      rw [hr] at this
      exact this
    · have := this x.node.idx (by rw [hidx, hr]; simp)
      rw [hr] at this
      exact this

/-! ### Worlds -/

structure Rep (w : World α) (u : SWorld α) : Prop where
  stores : w.stores = u.stores
  next : w.next = u.next
  ctrs : ∀ c, w.ctrs c = (u.ctrs c).map Prod.fst
  its : ∀ i, (w.its i = none ∧ u.its i = none) ∨ ∃ x y, w.its i = some x ∧ u.its i = some y ∧ RepIt u.stores u.next x y
  low : ∀ a s, u.stores a = some s → a < u.next
  live : ∀ c a b, u.ctrs c = some (a, b) → ∃ s, u.stores a = some s ∧ (b = true → WF Weak s)
  inj : ∀ c d a b b', u.ctrs c = some (a, b) → u.ctrs d = some (a, b') → c = d

omit [DecidableEq α] in
theorem Rep.it {w : World α} {u : SWorld α} (h : Rep w u) {i : Nat} {y : SIt} (hy : u.its i = some y) :
    ∃ x, w.its i = some x ∧ RepIt u.stores u.next x y := by
  rcases h.its i with ⟨-, h2⟩ | ⟨x, y', h1, h2, h3⟩
  · rw [h2] at hy; cases hy
  · rw [h2] at hy; cases hy; exact ⟨x, h1, h3⟩

omit [DecidableEq α] in
theorem Rep.ctr {w : World α} {u : SWorld α} (h : Rep w u) {c : Nat} (hc : u.ctrs c ≠ none) :
    ∃ a b s, u.ctrs c = some (a, b) ∧ u.stores a = some s ∧ (b = true → WF Weak s) ∧ w.ctrs c = some a ∧
      w.store c = some (a, s) ∧ u.store c = some (a, b, s) ∧ a < u.next := by
  cases hx : u.ctrs c with
  | none => exact absurd hx hc
  | some p =>
    obtain ⟨a, b⟩ := p
    obtain ⟨s, hs, hr⟩ := h.live c a b hx
    have hw : w.ctrs c = some a := by rw [h.ctrs, hx]; rfl
    exact ⟨a, b, s, rfl, hs, hr, hw, by simp [World.store, hw, h.stores, hs], by simp [SWorld.store, hx, hs], h.low a s hs⟩

omit [DecidableEq α] in
theorem store_ctr {u : SWorld α} {c a : Nat} {b : Bool} {s : St α} (h : u.store c = some (a, b, s)) :
    u.ctrs c = some (a, b) ∧ u.stores a = some s := by
  unfold SWorld.store at h
  cases hx : u.ctrs c with
  | none => rw [hx] at h; cases h
  | some p =>
    obtain ⟨a', b'⟩ := p
    rw [hx] at h
    simp only at h
    cases hs : u.stores a' with
    | none => rw [hs] at h; cases h
    | some s' => rw [hs] at h; simp at h; obtain ⟨rfl, rfl, rfl⟩ := h; exact ⟨rfl, hs⟩

omit [DecidableEq α] in
theorem alive_at {u : SWorld α} {x : SIt} {s : St α} {a k : Nat} (h : u.alive x = some (s, a, k)) :
    x.at_ = some (a, k) ∧ u.stores a = some s := by
  unfold SWorld.alive at h
  cases hx : x.at_ with
  | none => rw [hx] at h; cases h
  | some p =>
    obtain ⟨a', k'⟩ := p
    rw [hx] at h
    simp only at h
    cases hs : u.stores a' with
    | none => rw [hs] at h; cases h
    | some s' => rw [hs] at h; simp at h; obtain ⟨rfl, rfl, rfl⟩ := h; exact ⟨rfl, hs⟩

omit [DecidableEq α] in
theorem alive_some {u : SWorld α} {x : SIt} (h : u.alive x ≠ none) : ∃ s a k, u.alive x = some (s, a, k) := by
  cases hx : u.alive x with
  | none => exact absurd hx h
  | some p => exact ⟨p.1, p.2.1, p.2.2, rfl⟩

omit [DecidableEq α] in
theorem Rep.arrays {w : World α} {u : SWorld α} (h : Rep w u) {x : It} {y : SIt} (hx : RepIt u.stores u.next x y)
    {s : St α} {a k : Nat} (hy : u.alive y = some (s, a, k)) : w.arrays x = some s := by
  obtain ⟨h1, h2⟩ := alive_at hy
  simp [World.arrays, hx.arr, h1, h.stores, h2]

omit [DecidableEq α] in
/-- Storing an iterator. -/
theorem Rep.set {w : World α} {u : SWorld α} (h : Rep w u) (i : Nat) {x : It} {y : SIt} (hx : RepIt u.stores u.next x y) :
    Rep { w with its := put w.its i (some x) } (u.setIt i y) := by
  refine ⟨h.stores, h.next, h.ctrs, fun j => ?_, h.low, h.live, h.inj⟩
  simp only [SWorld.setIt, put]
  by_cases hj : j = i
  · simp only [if_pos hj]; exact .inr ⟨x, y, rfl, rfl, hx⟩
  · simp only [if_neg hj]; exact h.its j

omit [DecidableEq α] in
/-- Changing containers and stores while the iterators stay. -/
theorem Rep.change {w : World α} {u : SWorld α} (h : Rep w u) {S : Nat → Option (St α)} {C : Nat → Option Nat}
    {D : Nat → Option (Nat × Bool)} {n : Nat} (hC : ∀ c, C c = (D c).map Prod.fst) (hn : u.next ≤ n)
    (hS : ∀ a s', a < u.next → S a = some s' → ∃ s, u.stores a = some s ∧ s'.blocks.length = s.blocks.length)
    (hlow : ∀ a s, S a = some s → a < n) (hlive : ∀ c a b, D c = some (a, b) → ∃ s, S a = some s ∧ (b = true → WF Weak s))
    (hinj : ∀ c d a b b', D c = some (a, b) → D d = some (a, b') → c = d) :
    Rep { w with stores := S, ctrs := C, next := n } { u with stores := S, ctrs := D, next := n } := by
  refine ⟨rfl, rfl, hC, fun i => ?_, hlow, hlive, hinj⟩
  rcases h.its i with h1 | ⟨x, y, h1, h2, h3⟩
  · exact .inl h1
  · exact .inr ⟨x, y, h1, h2, h3.mono hn hS⟩

end Mdds.Mtv.Iter
