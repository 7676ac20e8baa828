import Verif.RTree.Props
/-! # rtree: values changed through search results (C78) -/
namespace Mdds.RTree

open Node

variable {D : Nat} {V : Type}

/-- `x` is a result of one of the four searches. -/
def Found (t : Node D V) (x : Hit D V) : Prop :=
  (∃ p ty, x ∈ searchPt t p ty) ∨ ∃ q ty, x ∈ searchBox t q ty

theorem Found.at {t : Node D V} {x : Hit D V} (h : Found t x) : At t x.path x.box x.v := by
  have key : ∀ dc vc, x ∈ searchN dc vc 0 [] t → At t x.path x.box x.v := by
    intro dc vc hx
    obtain ⟨r, h1, -, h2, -⟩ := searchN_at dc vc t 0 [] x hx
    rw [List.nil_append] at h1
    rw [h1]; exact h2
  rcases h with ⟨p, ty, h⟩ | ⟨q, ty, h⟩ <;> cases ty <;> exact key _ _ h

theorem walk_write {v' : V} : ∀ (path : List Nat) {t t' : Node D V}, writeAt v' path t = .ok t' → walkN t' = walkN t
  | [], .val .., t', h => by cases h; rfl
  | [], .dir .., _, h => by cases h
  | _ :: _, .val .., _, h => by cases h
  | i :: r, .dir l b p c f ks, t', h => by
    simp only [writeAt] at h
    cases hk : ks[i]? with
    | none => rw [hk] at h; cases h
    | some k =>
      rw [hk] at h
      simp only at h
      cases e : writeAt v' r k with
      | error x => rw [e] at h; cases h
      | ok k' =>
        rw [e] at h
        cases h
        have ih := walk_write r e
        obtain ⟨a, d, hks, -, hset⟩ := split_at hk
        have happ : ∀ x y : List (Node D V), walkL (x ++ y) = walkL x ++ walkL y := by
          intro x y
          induction x with
          | nil => simp [walkL]
          | cons z x ih => simp [walkL, ih]
        simp only [walkN, hset]
        simp only [hks, happ, walkL, ih]

/-- C78: assigning to the value behind an iterator of any search result, of any tree, changes the value of that entry and nothing
else: the entries and their order, the number of entries, the extent, the nodes that `walk` shows, and the results of every
search in their order stay the same, except that this entry is shown with the new value. -/
theorem C78_write {t : Node D V} {x : Hit D V} (hx : Found t x) (v' : V) :
    ∃ t', writeAt v' x.path t = .ok t' ∧
      (∃ l1 l2, t.entries = l1 ++ (x.box, x.v) :: l2 ∧ t'.entries = l1 ++ (x.box, v') :: l2) ∧
      size t' = size t ∧ extent t' = extent t ∧ isEmpty t' = isEmpty t ∧ walkN t' = walkN t ∧
      (∀ p ty, searchPt t' p ty = (searchPt t p ty).map (refresh x.path v')) ∧
      ∀ q ty, searchBox t' q ty = (searchBox t q ty).map (refresh x.path v') := by
  obtain ⟨t', e1, e2, -, e4, -, -, ⟨l1, l2, h1, h2⟩, -, -, -, hs⟩ := write_ok (v' := v') x.path hx.at
  refine ⟨t', e1, ⟨l1, l2, h1, h2⟩, by simp [size, h1, h2], e2, by simp [isEmpty, e4], walk_write x.path e1, ?_, ?_⟩
  · intro p ty; cases ty <;> exact hs _ _ 0 []
  · intro q ty; cases ty <;> exact hs _ _ 0 []

/-- C78: the tree after the assignment is one of the trees that C50 to C55 speak of, if it was one before: searches are exact, later
insertions and erasures do what they should. -/
theorem C78_write_reach {S : Shape} {cfg : Cfg D V} {t : Node D V} {l : List (Box D × V)} (hg : Good S cfg) (hr : Reach S cfg t l)
    {x : Hit D V} (hx : Found t x) (v' : V) :
    ∃ t' l', writeAt v' x.path t = .ok t' ∧ l.Perm ((x.box, x.v) :: l') ∧ Reach S cfg t' ((x.box, v') :: l') := by
  obtain ⟨t', e1, -⟩ := C78_write hx v'
  obtain ⟨h, hw, hp⟩ := reach_wf hg hr
  obtain ⟨l', p1, p2⟩ := write_perm hx.at e1
  have hl : l.Perm ((x.box, x.v) :: l') := hp.symm.trans p1
  exact ⟨t', l', e1, hl, .write hr hx.at e1 hl⟩

/-- On the sample history, the four entries that a search finds are found; writing through the second of them succeeds and a new search
shows the new value in its place; so do writes through the third, and again through the second. -/
example : ∃ t l, Reach (strict (demoCfg 2 6 2 true)) (demoCfg 2 6 2 true) t l ∧
    ∃ x y, Found t x ∧ Found t y ∧ x.path ≠ y.path ∧ x.path.length = 2 ∧
      ∃ t1 t2 t3, writeAt 77 x.path t = .ok t1 ∧ writeAt 78 y.path t1 = .ok t2 ∧ writeAt 79 x.path t2 = .ok t3 ∧
        (searchBox t (bx 0 0 50 50) .overlap).map Hit.v = [11, 101, 6, 100] ∧
        (searchBox t3 (bx 0 0 50 50) .overlap).map Hit.v = [11, 79, 78, 100] := by
  obtain ⟨t, l, e, hr⟩ := sample_ok
  have key : okAnd (runOps (demoCfg 2 6 2 true) empty sample) (fun t =>
      match searchBox t (bx 0 0 50 50) .overlap with
      | _ :: x :: y :: _ => decide (x.path ≠ y.path ∧ x.path.length = 2) &&
          (match writeAt 77 x.path t with
          | .ok t1 => (match writeAt 78 y.path t1 with
            | .ok t2 => (match writeAt 79 x.path t2 with
              | .ok t3 => decide ((searchBox t (bx 0 0 50 50) .overlap).map Hit.v = [11, 101, 6, 100] ∧
                  (searchBox t3 (bx 0 0 50 50) .overlap).map Hit.v = [11, 79, 78, 100])
              | .error _ => false)
            | .error _ => false)
          | .error _ => false)
      | _ => false) = true := by decide +kernel
  rw [e] at key
  simp only [okAnd] at key
  split at key
  case h_2 => cases key
  case h_1 w x y r hs =>
    have hx : Found t x := Or.inr ⟨bx 0 0 50 50, .overlap, by rw [hs]; simp⟩
    have hy : Found t y := Or.inr ⟨bx 0 0 50 50, .overlap, by rw [hs]; simp⟩
    rw [Bool.and_eq_true] at key
    obtain ⟨k1, k2⟩ := key
    have k1 := of_decide_eq_true k1
    split at k2
    case h_2 => cases k2
    case h_1 t1 e1 =>
      split at k2
      case h_2 => cases k2
      case h_1 t2 e2 =>
        split at k2
        case h_2 => cases k2
        case h_1 t3 e3 => exact ⟨t, l, hr, x, y, hx, hy, k1.1, k1.2, t1, t2, t3, e1, e2, e3, of_decide_eq_true k2⟩

/-- A list of assignments through kept results, one after the other. -/
def writes (t : Node D V) (ws : List (Hit D V × V)) : Except Fault (Node D V) :=
  ws.foldlM (fun t w => writeAt w.2 w.1.path t) t

/-- The value last assigned at a position, or `v`. -/
def last (path : List Nat) (v : V) (ws : List (Hit D V × V)) : V :=
  ws.foldl (fun u w => if w.1.path = path then w.2 else u) v

theorem refresh_path (path : List Nat) (v : V) (x : Hit D V) : (refresh path v x).path = x.path := by
  unfold refresh; split <;> rfl

/-- C78: results that were kept stay good while values are changed through any of them: all assignments succeed, each kept result shows
the value last assigned to its entry, and a new search shows the same entries in the same order with these values. -/
theorem C78_kept_results {t : Node D V} (ws : List (Hit D V × V)) (hws : ∀ w ∈ ws, Found t w.1) :
    ∃ t', writes t ws = .ok t' ∧
      (∀ x, Found t x → At t' x.path x.box (last x.path x.v ws)) ∧
      (∀ p ty, searchPt t' p ty = (searchPt t p ty).map fun x => { x with v := last x.path x.v ws }) ∧
      ∀ q ty, searchBox t' q ty = (searchBox t q ty).map fun x => { x with v := last x.path x.v ws } := by
  have key : ∀ (ws : List (Hit D V × V)) (t : Node D V), (∀ w ∈ ws, ∃ b v, At t w.1.path b v) →
      ∃ t', writes t ws = .ok t' ∧ (∀ p b v, At t p b v → At t' p b (last p v ws)) ∧
        ∀ dc vc, searchN dc vc 0 [] t' = (searchN dc vc 0 [] t).map fun x => { x with v := last x.path x.v ws } := by
    intro ws
    induction ws with
    | nil => intro t _; exact ⟨t, rfl, fun _ _ _ h => h, fun dc vc => by simp [last]⟩
    | cons w ws ih =>
      intro t h
      obtain ⟨b, v, hat⟩ := h w (by simp)
      obtain ⟨t1, e1, -, -, -, -, -, -, -, -, ha, hs⟩ := write_ok (v' := w.2) w.1.path hat
      obtain ⟨t2, f1, f2, f3⟩ := ih t1 (by
        intro w' hw'
        obtain ⟨b', u, hat'⟩ := h w' (by simp [hw'])
        by_cases hp : w'.1.path = w.1.path
        · exact ⟨b, w.2, (ha _ _ _).2 (Or.inl ⟨hp, rfl, rfl⟩)⟩
        · exact ⟨b', u, (ha _ _ _).2 (Or.inr ⟨hp, hat'⟩)⟩)
      refine ⟨t2, ?_, ?_, ?_⟩
      · simp only [writes, List.foldlM_cons, e1]; exact f1
      · intro p b' u hat'
        by_cases hp : w.1.path = p
        · subst hp
          have hb : b' = b := by
            have : ∀ (q : List Nat) (n : Node D V), At n q b v → At n q b' u → b' = b := by
              intro q
              induction q with
              | nil => intro n h1 h2; cases n <;> simp only [At] at h1 h2; rw [← h1.1, ← h2.1]
              | cons i q ih =>
                intro n h1 h2
                cases n with
                | val => simp [At] at h1
                | dir =>
                  obtain ⟨k, hk, g1⟩ := h1
                  obtain ⟨k', hk', g2⟩ := h2
                  rw [hk] at hk'; cases hk'
                  exact ih k g1 g2
            exact this _ t hat hat'
          subst hb
          have := f2 _ _ _ ((ha w.1.path b' w.2).2 (Or.inl ⟨rfl, rfl, rfl⟩))
          simpa [last] using this
        · have := f2 _ _ _ ((ha p b' u).2 (Or.inr ⟨fun h => hp h.symm, hat'⟩))
          simpa [last, hp] using this
      · intro dc vc
        rw [f3, hs, List.map_map]
        apply List.map_congr_left
        intro x _
        simp only [Function.comp, List.nil_append, refresh_path]
        unfold refresh
        by_cases hp : w.1.path = x.path
        · simp [last, hp]
        · rw [if_neg (fun h => hp h.symm)]; simp [last, hp]
  obtain ⟨t', h1, h2, h3⟩ := key ws t (fun w hw => ⟨_, _, (hws w hw).at⟩)
  refine ⟨t', h1, fun x hx => h2 _ _ _ hx.at, ?_, ?_⟩
  · intro p ty; cases ty <;> exact h3 _ _
  · intro q ty; cases ty <;> exact h3 _ _

end Mdds.RTree
