import Verif.Mtv.CowCore
/-!
# multi_type_vector: every step keeps the containers apart
-/

namespace Mdds.Mtv.Cow

set_option linter.unusedSectionVars false
set_option linter.unusedVariables false

variable {α : Type} [DecidableEq α]

/-- Two neighbouring blocks are not both empty. -/
abbrev NE : Option Ty → Prop := fun t => t ≠ none

theorem strip_sep {S : Option Ty → Prop} {bs bs' : List (Blk α)} (h : bs'.map strip = bs.map strip) (hs : Sep S bs) : Sep S bs' := by
  have : bs'.map Blk.ty = bs.map Blk.ty := by
    have := congrArg (List.map fun x : Nat × Nat × Option (Ty × List α) => x.2.2.map Prod.fst) h
    simp only [List.map_map] at this
    convert this using 2
    · funext b; rcases b with ⟨p, n, _ | d⟩ <;> rfl
    · funext b; rcases b with ⟨p, n, _ | d⟩ <;> rfl
  unfold Sep at *
  rw [this]; exact hs

/-- The container holds the blocks `bs`. -/
structure Shows (hp : Heap α) (c : Ctr) (bs : List (Blk α)) : Prop where
  load : loadBlocks hp c.slots = some bs
  tile : Tile 0 bs
  cur : c.cur = total bs
  sep : Sep NE bs
  bal : nacq c.evs = nrel c.evs + (addrs c.slots).length

/-- A container is as the specification says. -/
def ItemOk (hp : Heap α) : Option Ctr → Option (Item α) → Prop
  | none, none => True
  | some c, some .moved => c.slots = [] ∧ c.holder = none ∧ nacq c.evs = nrel c.evs
  | some c, some (.live L m) => ∃ bs, Shows hp c bs ∧ cells bs = L ∧ m = c.holder.isSome
  | _, _ => False

theorem ItemOk.congr {hp hp' : Heap α} {c : Option Ctr} {x : Option (Item α)} (h : ItemOk hp c x)
    (hh : ∀ d, c = some d → ∀ a ∈ addrs d.slots, hp' a = hp a) : ItemOk hp' c x := by
  rcases c with _ | c <;> rcases x with _ | (_ | ⟨L, m⟩)
  · trivial
  · exact h
  · exact h
  · exact h
  · exact h
  · obtain ⟨bs, h1, h2, h3⟩ := h
    exact ⟨bs, ⟨by rw [loadBlocks_congr _ (hh c rfl)]; exact h1.load, h1.tile, h1.cur, h1.sep, h1.bal⟩, h2, h3⟩

theorem ItemOk.bal {hp : Heap α} {c : Ctr} {x : Option (Item α)} (h : ItemOk hp (some c) x) :
    nacq c.evs = nrel c.evs + (addrs c.slots).length := by
  rcases x with _ | (_ | ⟨L, m⟩)
  · exact h.elim
  · simp [h.1, h.2.2, addrs]
  · obtain ⟨bs, h1, -⟩ := h
    exact h1.bal

/-- The state is as the specification says, and every block has one owner. -/
structure Inv (T : Traits) (w : World α) (S : Items α) : Prop where
  core : Core T w.heap w.holders w.ctrs w.next none
  len : w.ctrs.length = S.length
  items : ∀ j : Nat, ItemOk w.heap (w.get j) (S.at j)
  logs : ∀ l ∈ w.logs, nacq l = nrel l

theorem Items.at_set (S : Items α) (i j : Nat) (x : Option (Item α)) (h : i < S.length) :
    Items.at (S.set i x) j = if i = j then x else S.at j := Cow.at_set S i j x h

theorem Items.at_append (S : Items α) (j : Nat) (x : Option (Item α)) :
    Items.at (S ++ [x]) j = if j = S.length then x else S.at j := Cow.at_append S j x

theorem Items.at_lt {S : Items α} {i : Nat} (h : S.at i ≠ none) : i < S.length := by
  rcases hx : S.at i with _ | x
  · exact absurd hx h
  · exact Cow.at_lt hx

variable {T : Traits} {w : World α} {S : Items α}

/-- Only what the specification says at each index matters. -/
theorem Inv.ext (I : Inv T w S) {S' : Items α} (hl : S'.length = S.length) (h : ∀ j, S'.at j = S.at j) : Inv T w S' :=
  ⟨I.core, by rw [I.len, hl], fun j => by rw [h]; exact I.items j, I.logs⟩

theorem Inv.exi (I : Inv T w S) {i : Nat} (h : S.at i ≠ none) : ∃ c, w.get i = some c := by
  have := I.items i
  rcases hc : w.get i with _ | c
  · rw [hc] at this
    rcases hx : S.at i with _ | x
    · exact absurd hx h
    · rw [hx] at this; exact this.elim
  · exact ⟨c, rfl⟩

theorem Inv.live (I : Inv T w S) {i : Nat} {L : List (Cell α)} {m : Bool} (h : S.at i = some (.live L m)) :
    ∃ c bs, w.get i = some c ∧ Shows w.heap c bs ∧ cells bs = L ∧ m = c.holder.isSome := by
  obtain ⟨c, hc⟩ := I.exi (i := i) (by rw [h]; simp)
  have := I.items i
  rw [hc, h] at this
  obtain ⟨bs, h1, h2, h3⟩ := this
  exact ⟨c, bs, hc, h1, h2, h3⟩

theorem items_set (I : Inv T w S) {i : Nat} (hi : i < S.length) {hp' : Heap α} {y : Option Ctr} {it : Option (Item α)}
    (hf : ∀ (j : Nat) (d : Ctr), j ≠ i → w.ctrs[j]?.join = some d → ∀ a ∈ addrs d.slots, hp' a = w.heap a)
    (hy : ItemOk hp' y it) (j : Nat) : ItemOk hp' ((w.ctrs.set i y)[j]?.join) (Items.at (S.set i it) j) := by
  rw [Cow.at_set _ _ _ _ (by rw [I.len]; exact hi), Items.at_set _ _ _ _ hi]
  by_cases h : i = j
  · rw [if_pos h, if_pos h]; exact hy
  · rw [if_neg h, if_neg h]
    exact (I.items j).congr fun d hd => hf j d (fun e => h e.symm) hd

theorem items_append (I : Inv T w S) {hp' : Heap α} {y : Option Ctr} {it : Option (Item α)}
    (hf : ∀ (j : Nat) (d : Ctr), w.ctrs[j]?.join = some d → ∀ a ∈ addrs d.slots, hp' a = w.heap a)
    (hy : ItemOk hp' y it) (j : Nat) : ItemOk hp' ((w.ctrs ++ [y])[j]?.join) (Items.at (S ++ [it]) j) := by
  rw [Cow.at_append, Items.at_append, I.len]
  by_cases h : j = S.length
  · rw [if_pos h, if_pos h]; exact hy
  · rw [if_neg h, if_neg h]
    exact (I.items j).congr fun d hd => hf j d hd

theorem set_same (I : Inv T w S) {i : Nat} {x : Option (Item α)} (h : S.at i = x) (hx : x ≠ none) : Inv T w (S.set i x) := by
  refine I.ext (by simp) fun j => ?_
  rw [Items.at_set _ _ _ _ (Items.at_lt (by rw [h]; exact hx))]
  split
  · rename_i e; subst e; exact h.symm
  · rfl

/-! ### Events -/

theorem nacq_map_acq (l : List Nat) : nacq (l.map Ev.acq) = l.length := by
  induction l with
  | nil => rfl
  | cons a l ih => simp [nacq, List.countP_cons, Ev.isAcq] at ih ⊢

theorem nrel_map_acq (l : List Nat) : nrel (l.map Ev.acq) = 0 := by
  induction l with
  | nil => rfl
  | cons a l ih => simp [nrel, List.countP_cons, Ev.isAcq] at ih ⊢

theorem nacq_map_rel (l : List Nat) : nacq (l.map Ev.rel) = 0 := by
  induction l with
  | nil => rfl
  | cons a l ih => simp [nacq, List.countP_cons, Ev.isAcq] at ih ⊢

theorem nrel_map_rel (l : List Nat) : nrel (l.map Ev.rel) = l.length := by
  induction l with
  | nil => rfl
  | cons a l ih => simp [nrel, List.countP_cons, Ev.isAcq] at ih ⊢

theorem ev_zip (xs ys : List Nat) (h : xs.length = ys.length) :
    nacq ((xs.zip ys).flatMap fun p => [Ev.rel p.1, Ev.acq p.2]) = xs.length ∧
    nrel ((xs.zip ys).flatMap fun p => [Ev.rel p.1, Ev.acq p.2]) = xs.length := by
  induction xs generalizing ys with
  | nil => exact ⟨rfl, rfl⟩
  | cons x xs ih =>
    cases ys with
    | nil => simp at h
    | cons y ys =>
      have := ih ys (by simpa using h)
      simp only [List.zip_cons_cons, List.flatMap_cons, nacq_append, nrel_append, this.1, this.2, List.length_cons]
      constructor <;> simp [nacq, nrel, List.countP_cons, Ev.isAcq] <;> omega

/-! ### One container -/

/-- New blocks for an owner. -/
theorem storeBack_ok (I : Inv T w S) {i : Nat} {c : Ctr} (hc : w.get i = some c) (ho : c.holder = none) {s' : St α}
    (hw : WF NE s') (hb : Bal s') :
    ∃ w', storeBack i s' w = .ok w' ∧ Inv T w' (S.set i (some (.live (cells s'.blocks) false))) := by
  have hl : i < S.length := by rw [← I.len]; exact at_lt hc
  obtain ⟨hp1, e1, C1, f1⟩ := I.core.free hc ho (y := some ⟨[], 0, [], none⟩) (by intro d hd; cases hd; exact ⟨rfl, rfl⟩)
  obtain ⟨xs, m, hp2, bs', e2, l2, st, ln, f2, C2, -⟩ := C1.alloc s'.blocks
  have C3 := C2 i (some ⟨[], 0, [], none⟩) s'.cur s'.evs (by rw [List.getElem?_set_self (by rw [I.len]; exact hl)])
    (by intro d hd; cases hd; exact ⟨rfl, rfl⟩)
  rw [List.set_set] at C3
  refine ⟨{ w with heap := hp2, next := m, ctrs := w.ctrs.set i (some { c with slots := xs, cur := s'.cur, evs := s'.evs }) }, ?_, ?_⟩
  · simp only [storeBack, hc, e1, e2]
  · have hcc : ({ c with slots := xs, cur := s'.cur, evs := s'.evs } : Ctr) = ⟨xs, s'.cur, s'.evs, none⟩ := by rw [← ho]
    rw [hcc]
    refine ⟨C3, by simp [I.len], items_set I hl ?_ ?_, I.logs⟩
    · intro j d hj hd a ha
      show hp2 a = w.heap a
      rw [f2 j d (by rw [Cow.at_set _ _ _ _ (at_lt hc), if_neg (fun e => hj e.symm)]; exact hd) a ha]
      exact f1 j d hj hd a ha
    · refine ⟨bs', ⟨l2, strip_tile 0 st hw.tile, ?_, strip_sep st hw.sep, ?_⟩, strip_cells st, rfl⟩
      · rw [strip_total st]; exact hw.cur
      · show nacq s'.evs = nrel s'.evs + (addrs xs).length
        rw [ln]; exact hb

theorem Shows.wf {hp : Heap α} {c : Ctr} {bs : List (Blk α)} (h : Shows hp c bs) (n : Nat) :
    WF NE (⟨bs, c.cur, [], c.evs, n⟩ : St α) ∧ Bal (⟨bs, c.cur, [], c.evs, n⟩ : St α) ∧
      contents (⟨bs, c.cur, [], c.evs, n⟩ : St α) = cells bs :=
  ⟨⟨h.tile, h.cur, h.sep⟩, by unfold Bal; rw [load_len h.load]; exact h.bal, contents_eq _⟩

/-- A block pointer vector of its own. -/
theorem detach_ok (I : Inv T w S) {i : Nat} {L : List (Cell α)} {m : Bool} (h : S.at i = some (.live L m)) :
    ∃ w', detach T i w = .ok w' ∧ Inv T w' (S.set i (some (.live L false))) := by
  obtain ⟨c, bs, hc, sh, hL, hm⟩ := I.live h
  have hl : i < S.length := by rw [← I.len]; exact at_lt hc
  rcases hh : c.holder with _ | hd
  · refine ⟨w, by simp only [detach, hc, hh], set_same I ?_ (by simp)⟩
    rw [h, hm, hh]; rfl
  · have hT : allTypes T.clonable bs = true := by
      rw [load_types sh.load]
      intro a ha
      obtain ⟨k, h1, h2⟩ := I.core.bor i c hd hc hh
      have := I.core.live hc a ha
      rcases hx : w.heap a with _ | x
      · rw [hx] at this; cases this
      · exact ⟨x, rfl, I.core.clon hd k h1 a (by rw [h2]; exact ha) x hx⟩
    have C1 := I.core.leave hc hh (y := some ⟨[], 0, [], none⟩) (by intro d hd; cases hd; exact ⟨rfl, rfl⟩)
    obtain ⟨xs, m', hp2, bs', e2, l2, st, ln, f2, C2, -⟩ := C1.alloc bs
    have C3 := C2 i (some ⟨[], 0, [], none⟩) c.cur (c.evs ++
            ((addrs c.slots).zip (addrs xs)).flatMap (fun p => [Ev.rel p.1, Ev.acq p.2]))
      (by rw [List.getElem?_set_self (by rw [I.len]; exact hl)]) (by intro d hd; cases hd; exact ⟨rfl, rfl⟩)
    rw [List.set_set] at C3
    obtain ⟨w', e3, c3, g3, C4, f3⟩ := Core.drop (w := { w with heap := hp2, next := m', ctrs := w.ctrs.set i (some ⟨xs, c.cur, c.evs ++
            ((addrs c.slots).zip (addrs xs)).flatMap (fun p => [Ev.rel p.1, Ev.acq p.2]), none⟩) }) C3
    dsimp only at c3 g3 f3
    refine ⟨w', ?_, C4, by rw [c3]; simp [I.len], ?_, by rw [g3]; exact I.logs⟩
    · simp only [detach, hc, hh, sh.load, hT, if_true, e2]
      exact e3
    · intro j
      unfold World.get
      rw [c3]
      refine items_set I hl ?_ ?_ j
      · intro j d hj hd a ha
        have hj' : (w.ctrs.set i (some ⟨xs, c.cur, c.evs ++
            ((addrs c.slots).zip (addrs xs)).flatMap (fun p => [Ev.rel p.1, Ev.acq p.2]), none⟩))[j]?.join = some d := by
          rw [Cow.at_set _ _ _ _ (at_lt hc), if_neg (fun e => hj e.symm)]; exact hd
        rw [f3 j d hj' a ha]
        exact f2 j d (by rw [Cow.at_set _ _ _ _ (at_lt hc), if_neg (fun e => hj e.symm)]; exact hd) a ha
      · have hi' : (w.ctrs.set i (some ⟨xs, c.cur, c.evs ++
            ((addrs c.slots).zip (addrs xs)).flatMap (fun p => [Ev.rel p.1, Ev.acq p.2]), none⟩))[i]?.join = some ⟨xs, c.cur, c.evs ++
            ((addrs c.slots).zip (addrs xs)).flatMap (fun p => [Ev.rel p.1, Ev.acq p.2]), none⟩ := by
          rw [Cow.at_set _ _ _ _ (at_lt hc), if_pos rfl]
        have hlen : (addrs c.slots).length = (addrs xs).length := by rw [ln, load_len sh.load]
        refine ⟨bs', ⟨?_, strip_tile 0 st sh.tile, ?_, strip_sep st sh.sep, ?_⟩, ?_, rfl⟩
        · rw [loadBlocks_congr _ (f3 i _ hi')]; exact l2
        · rw [strip_total st]; exact sh.cur
        · have := sh.bal
          have hz := ev_zip _ _ hlen
          show nacq (c.evs ++ _) = nrel (c.evs ++ _) + (addrs xs).length
          rw [nacq_append, nrel_append, hz.1, hz.2]
          omega
        · rw [strip_cells st]; exact hL

theorem share_ok (I : Inv T w S) {i : Nat} {L : List (Cell α)} {m : Bool} (h : S.at i = some (.live L m))
    (hT : allOf T.clonable L = true) :
    ∃ w' c k, share i w = .ok w' ∧ Inv T w' (S.set i (some (.live L true))) ∧ w'.get i = some c ∧ c.holder = some k := by
  obtain ⟨c, bs, hc, sh, hL, hm⟩ := I.live h
  have hl : i < S.length := by rw [← I.len]; exact at_lt hc
  rcases hh : c.holder with _ | hd
  · have ht : ∀ a ∈ addrs c.slots, ∀ x, w.heap a = some x → T.clonable x.1 = true := by
      rw [← hL, ← types_cells sh.tile, load_types sh.load] at hT
      intro a ha x hx
      obtain ⟨y, h1, h2⟩ := hT a ha
      rw [hx] at h1; cases h1; exact h2
    refine ⟨_, { c with holder := some w.holders.length }, w.holders.length, by simp only [share, hc, hh]; rfl, ?_, ?_, rfl⟩
    · refine ⟨I.core.share hc hh ht, by simp [I.len], items_set I hl (fun _ _ _ _ _ _ => rfl) ?_, I.logs⟩
      exact ⟨bs, ⟨sh.load, sh.tile, sh.cur, sh.sep, sh.bal⟩, hL, rfl⟩
    · simp only [World.get, Cow.at_set _ _ _ _ (at_lt hc), if_pos]
  · refine ⟨w, c, hd, by simp only [share, hc, hh], set_same I ?_ (by simp), hc, hh⟩
    rw [h, hm, hh]; rfl

theorem borrow_ok (I : Inv T w S) {i : Nat} {L : List (Cell α)} {m : Bool} (h : S.at i = some (.live L m))
    (hT : allOf T.clonable L = true) :
    ∃ w', borrow i w = .ok w' ∧ Inv T w' (S.set i (some (.live L true)) ++ [some (.live L true)]) := by
  obtain ⟨w1, c, k, e1, I1, hc, hk⟩ := share_ok I h hT
  have hl : i < S.length := Items.at_lt (by rw [h]; simp)
  obtain ⟨c', bs, hc', sh, hL, -⟩ := I1.live (i := i) (L := L) (m := true) (by rw [Items.at_set _ _ _ _ hl, if_pos rfl])
  rw [hc] at hc'; cases hc'
  obtain ⟨q, hq, hb⟩ := I1.core.bor i c k hc hk
  have C1 := I1.core.ref hq
  have hq' : (w1.holders.set k (some { q with refs := q.refs + 1 }))[k]?.join = some { q with refs := q.refs + 1 } := by
    rw [Cow.at_set _ _ _ _ (at_lt hq), if_pos rfl]
  have C2 := C1.join (c := { c with evs := (addrs c.slots).map Ev.acq }) hk hq' hb
  refine ⟨{ w1 with holders := w1.holders.set k (some { q with refs := q.refs + 1 }), ctrs := w1.ctrs ++ [some { c with evs := (addrs c.slots).map Ev.acq }] },
    by simp only [borrow, e1, Out.bind, hc, hk, addRef, hq], C2, by simp [I1.len],
    items_append I1 (fun _ _ _ _ _ => rfl) ?_, I1.logs⟩
  refine ⟨bs, ⟨sh.load, sh.tile, sh.cur, sh.sep, ?_⟩, hL, by simp [hk]⟩
  show nacq ((addrs c.slots).map Ev.acq) = nrel ((addrs c.slots).map Ev.acq) + (addrs c.slots).length
  rw [nacq_map_acq, nrel_map_acq]; omega

theorem pushOwned_ok (I : Inv T w S) {bs : List (Blk α)} {cur : Nat} {evs : List Nat → List Ev} (ht : Tile 0 bs)
    (hc : cur = total bs) (hs : Sep NE bs)
    (hb : ∀ l : List Nat, l.length = (ids bs).length → nacq (evs l) = nrel (evs l) + l.length) :
    Inv T (pushOwned bs cur evs w) (S ++ [some (.live (cells bs) false)]) := by
  obtain ⟨xs, m, hp2, bs', e2, l2, st, ln, f2, -, C2⟩ := I.core.alloc bs
  have e : pushOwned bs cur evs w = { w with heap := hp2, next := m, ctrs := w.ctrs ++ [some ⟨xs, cur, evs (addrs xs), none⟩] } := by
    simp only [pushOwned, e2]
  rw [e]
  refine ⟨C2 cur _, by simp [I.len], items_append I f2 ⟨bs', ⟨l2, strip_tile 0 st ht, ?_, strip_sep st hs, hb _ ln⟩, strip_cells st, rfl⟩, I.logs⟩
  rw [strip_total st]; exact hc

theorem destroy_ok (I : Inv T w S) {i : Nat} (h : S.at i ≠ none) :
    ∃ w', destroy i w = .ok w' ∧ Inv T w' (S.set i none) := by
  obtain ⟨c, hc⟩ := I.exi h
  have hl : i < S.length := by rw [← I.len]; exact at_lt hc
  have hb : nacq c.evs = nrel c.evs + (addrs c.slots).length := by
    have := I.items i
    rw [hc] at this
    exact this.bal
  have hlog : ∀ l ∈ w.logs ++ [c.evs ++ (addrs c.slots).map Ev.rel], nacq l = nrel l := by
    intro l hm
    rcases List.mem_append.1 hm with hm | hm
    · exact I.logs l hm
    · simp only [List.mem_singleton] at hm
      subst hm
      rw [nacq_append, nrel_append, nacq_map_rel, nrel_map_rel]
      omega
  rcases hh : c.holder with _ | hd
  · obtain ⟨hp1, e1, C1, f1⟩ := I.core.free hc hh (y := none) (by intro d hd; cases hd)
    refine ⟨_, by simp only [destroy, hc, hh, e1]; rfl, C1, by simp [I.len], items_set I hl f1 (y := none) (it := none) trivial, hlog⟩
  · have C1 := I.core.leave hc hh (y := none) (by intro d hd; cases hd)
    obtain ⟨w', e3, c3, g3, C4, f3⟩ := Core.drop (w := { w with ctrs := w.ctrs.set i none, logs := w.logs ++ [c.evs ++ (addrs c.slots).map Ev.rel] }) C1
    dsimp only at c3 g3 f3
    refine ⟨w', by simp only [destroy, hc, hh]; exact e3, C4, by rw [c3]; simp [I.len], ?_, by rw [g3]; exact hlog⟩
    intro j
    unfold World.get
    rw [c3]
    refine items_set I hl ?_ (y := none) (it := none) trivial j
    intro j d hj hd a ha
    exact f3 j d (by rw [Cow.at_set _ _ _ _ (at_lt hc), if_neg (fun e => hj e.symm)]; exact hd) a ha

theorem swapCtrs_ok (I : Inv T w S) {i j : Nat} (hi : S.at i ≠ none) (hj : S.at j ≠ none) :
    ∃ w', swapCtrs i j w = .ok w' ∧ Inv T w' ((S.set i (S.at j)).set j (S.at i)) := by
  obtain ⟨c, hc⟩ := I.exi hi
  obtain ⟨d, hd⟩ := I.exi hj
  have li := at_lt hc
  have lj := at_lt hd
  have hat : ∀ k, (((w.ctrs.set i (some d)).set j (some c))[k]?).join = if j = k then some c else if i = k then some d else w.get k := by
    intro k
    rw [Cow.at_set _ _ _ _ (by simpa using lj), Cow.at_set _ _ _ _ li]; rfl
  refine ⟨{ w with ctrs := (w.ctrs.set i (some d)).set j (some c) }, by simp only [swapCtrs, hc, hd], ?_, by simp [I.len], ?_, I.logs⟩
  · by_cases hij : i = j
    · subst hij
      rw [hc] at hd; cases hd
      rw [List.set_set]
      have : w.ctrs.set i (some c) = w.ctrs := by
        have hi := (List.getElem?_eq_some_iff.1 (join_some.1 hc)).2
        rw [← hi]; exact List.set_getElem_self _
      rw [this]; exact I.core
    · have hj' : (w.ctrs.set i (some d))[j]? = some (some d) := by
        rw [List.getElem?_set_ne hij]; exact join_some.1 hd
      refine I.core.ctrs ?_ ?_ ?_
      · intro a
        have h1 := ctrs_set_own (y := some d) (join_some.1 hc) a
        have h2 := ctrs_set_own (y := some c) hj' a
        dsimp only
        omega
      · intro h
        have h1 := ctrs_set_ref (y := some d) (join_some.1 hc) h
        have h2 := ctrs_set_ref (y := some c) hj' h
        dsimp only
        omega
      · intro k x hx _
        rw [hat k] at hx
        split at hx
        · cases hx; exact ⟨i, hc⟩
        · split at hx
          · cases hx; exact ⟨j, hd⟩
          · exact ⟨k, hx⟩
  · intro k
    show ItemOk _ (((w.ctrs.set i (some d)).set j (some c))[k]?.join) _
    rw [hat k, Items.at_set _ _ _ _ (by rw [List.length_set, ← I.len]; exact lj), Items.at_set _ _ _ _ (by rw [← I.len]; exact li)]
    split
    · rw [← hc]; exact I.items i
    · split
      · rw [← hd]; exact I.items j
      · exact I.items k

theorem moveCtor_ok (I : Inv T w S) {i : Nat} (hi : S.at i ≠ none) :
    ∃ w', moveCtor i w = .ok w' ∧ Inv T w' (S.set i (some .moved) ++ [S.at i]) := by
  obtain ⟨c, hc⟩ := I.exi hi
  have li := at_lt hc
  have hat : ∀ k, ((w.ctrs.set i (some ⟨[], c.cur, [], none⟩) ++ [some c])[k]?).join =
      if k = w.ctrs.length then some c else if i = k then some ⟨[], c.cur, [], none⟩ else w.get k := by
    intro k
    rw [Cow.at_append, List.length_set, Cow.at_set _ _ _ _ li]; rfl
  refine ⟨{ w with ctrs := w.ctrs.set i (some ⟨[], c.cur, [], none⟩) ++ [some c] }, by simp only [moveCtor, hc], ?_, by simp [I.len], ?_, I.logs⟩
  · refine I.core.ctrs ?_ ?_ ?_
    · intro a
      have h1 := ctrs_set_own (y := some ⟨[], c.cur, [], none⟩) (join_some.1 hc) a
      have h2 : ownC (some (⟨[], c.cur, [], none⟩ : Ctr)) = [] := rfl
      rw [h2] at h1
      simp only [List.flatMap_append, List.count_append, List.flatMap_cons, List.flatMap_nil, List.append_nil, List.count_nil] at h1 ⊢
      omega
    · intro h
      have h1 := ctrs_set_ref (y := some ⟨[], c.cur, [], none⟩) (join_some.1 hc) h
      have h2 : bors h (some (⟨[], c.cur, [], none⟩ : Ctr)) = false := by simp [bors]
      rw [h2] at h1
      rw [List.countP_append, List.countP_singleton]
      simp only [Bool.false_eq_true, if_false] at h1
      omega
    · intro k x hx hn
      rw [hat k] at hx
      split at hx
      · cases hx; exact ⟨i, hc⟩
      · split at hx
        · cases hx; exact absurd rfl hn
        · exact ⟨k, hx⟩
  · intro k
    show ItemOk _ ((w.ctrs.set i (some ⟨[], c.cur, [], none⟩) ++ [some c])[k]?.join) _
    rw [hat k, Items.at_append, List.length_set, Items.at_set _ _ _ _ (by rw [← I.len]; exact li), I.len]
    split
    · rw [← hc]; exact I.items i
    · split
      · exact ⟨rfl, rfl, rfl⟩
      · exact I.items k

theorem Inv.dropLast {n : Nat} (I : Inv T w (S ++ [none])) (hn : S.length = n) :
    Inv T { w with ctrs := w.ctrs.take n } S := by
  have hl : w.ctrs.length = n + 1 := by rw [I.len]; simp [hn]
  have hlast : w.get n = none := by
    have := I.items n
    rw [Items.at_append, if_pos hn.symm] at this
    rcases hx : w.get n with _ | x
    · rfl
    · rw [hx] at this; exact this.elim
  have hsplit : w.ctrs = w.ctrs.take n ++ [none] := by
    have h1 : w.ctrs[n]? = some none := by
      unfold World.get at hlast
      rw [List.getElem?_eq_getElem (by omega)] at hlast ⊢
      exact congrArg some hlast
    have h2 := List.take_append_drop n w.ctrs
    rw [← List.getElem_cons_drop (show n < w.ctrs.length by omega), (List.getElem?_eq_some_iff.1 h1).2,
      List.drop_eq_nil_of_le (by omega)] at h2
    exact h2.symm
  have hget : ∀ k, (w.ctrs.take n)[k]?.join = w.get k := by
    intro k
    show _ = w.ctrs[k]?.join
    rw [hsplit, Cow.at_append]
    simp only [List.take_append, List.length_take, hl]
    rw [Nat.min_eq_left (by omega)]
    simp only [Nat.sub_self, List.take_zero, List.append_nil, List.take_take, Nat.min_self]
    split
    · rename_i e; rw [List.getElem?_eq_none (by simp; omega)]; rfl
    · rfl
  refine ⟨I.core.ctrs ?_ ?_ ?_, by simp [hl, hn], ?_, I.logs⟩
  · intro a
    conv_rhs => rw [hsplit]
    simp [ownC]
  · intro h
    conv_rhs => rw [hsplit]
    simp [bors, List.countP_cons]
  · intro k x hx _
    rw [hget] at hx
    exact ⟨k, hx⟩
  · intro k
    show ItemOk _ ((w.ctrs.take n)[k]?.join) _
    rw [hget]
    have := I.items k
    rw [Items.at_append] at this
    by_cases hk : k = S.length
    · rw [if_pos hk] at this
      have h0 : S.at k = none := by
        unfold Items.at
        rw [List.getElem?_eq_none (by omega)]; rfl
      rw [h0]; exact this
    · rw [if_neg hk] at this; exact this

theorem swapWithLast_ok {x : Option (Item α)} {n i : Nat} (I : Inv T w (S ++ [x])) (hn : S.length = n)
    (hi : S.at i ≠ none) (hx : x ≠ none) :
    ∃ w', swapWithLast i n w = .ok w' ∧ Inv T w' (S.set i x) := by
  have li := Items.at_lt hi
  have h1 : Items.at (S ++ [x]) i = S.at i := by rw [Items.at_append, if_neg (by omega)]
  have h2 : Items.at (S ++ [x]) n = x := by rw [Items.at_append, if_pos hn.symm]
  obtain ⟨w1, e1, I1⟩ := swapCtrs_ok I (i := i) (j := n) (by rw [h1]; exact hi) (by rw [h2]; exact hx)
  rw [h1, h2] at I1
  obtain ⟨w2, e2, I2⟩ := destroy_ok I1 (i := n) (by
    rw [Items.at_set _ _ _ _ (by simp; omega), if_pos rfl]; exact hi)
  have I3 : Inv T w2 (S.set i x ++ [none]) := by
    refine I2.ext (by simp) fun k => ?_
    have la : i < (S ++ [x]).length := by simp; omega
    have lb : n < ((S ++ [x]).set i x).length := by simp; omega
    have lc : n < (((S ++ [x]).set i x).set n (S.at i)).length := by simp; omega
    rw [Items.at_append, Items.at_set _ _ _ _ lc, Items.at_set _ _ _ _ lb,
      Items.at_set _ _ _ _ la, Items.at_set _ _ _ _ li, Items.at_append, List.length_set, hn]
    by_cases hk : k = n
    · rw [if_pos hk, if_pos hk.symm]
    · simp only [if_neg hk, if_neg (fun e : n = k => hk e.symm)]
  exact ⟨_, by simp only [swapWithLast, e1, Out.bind, e2]; rfl, I3.dropLast (by simp [hn])⟩

end Mdds.Mtv.Cow
