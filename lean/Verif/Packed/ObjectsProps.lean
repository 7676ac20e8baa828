import Verif.Packed.ObjectsSpec
import Verif.Trie.ObjectsProps

/-! # packed_trie_map: several maps, kept search results and node handles (C77) -/
namespace Mdds.Packed.Obj
open Mdds.Trie Mdds.Trie.Kept
open Mdds.Trie.Obj (under mem_under found_iff under_entN asc_filter any_child lookup_self)

variable {V : Type}

/-! ### the source of a packed map -/

theorem build_spec (l : List (Key × V)) : Reachable (build l) ∧ entN [] (build l) = l.foldl (fun m e => sInsert e.1 e.2 m) [] := by
  have key : ∀ (l : List (Key × V)) (t : Node V), Reachable t →
      Reachable (l.foldl (fun t e => Trie.insert e.1 e.2 t) t) ∧
      entN [] (l.foldl (fun t e => Trie.insert e.1 e.2 t) t) = l.foldl (fun m e => sInsert e.1 e.2 m) (entN [] t) := by
    intro l
    induction l with
    | nil => intro t ht; exact ⟨ht, rfl⟩
    | cons e l ih =>
      intro t ht
      have h1 : Reachable (Trie.insert e.1 e.2 t) := reach_step ht (.insert e.1 e.2)
      have := ih _ h1
      rw [entN_insert t ht.wf] at this
      exact this
  exact key l Trie.empty ⟨[], rfl⟩

theorem mem_inserts (l : List (Key × V)) (k : Key) (v : V) : (k, v) ∈ l.foldl (fun m e => sInsert e.1 e.2 m) [] → (k, v) ∈ l := by
  have key : ∀ (l m : List (Key × V)), (k, v) ∈ l.foldl (fun m e => sInsert e.1 e.2 m) m → (k, v) ∈ m ∨ (k, v) ∈ l := by
    intro l
    induction l with
    | nil => intro m h; exact Or.inl h
    | cons e l ih =>
      intro m h
      rcases ih _ h with h | h
      · simp only [sInsert, List.mem_append, List.mem_cons, List.mem_filter] at h
        rcases h with h | h | h
        · exact Or.inl h.1
        · exact Or.inr (by rw [h]; simp)
        · exact Or.inl h.1
      · exact Or.inr (List.mem_cons_of_mem _ h)
  intro h
  rcases key l [] h with h | h
  · cases h
  · exact h

theorem packs_build {cap : Nat} {l : List (Key × V)} (h : Fits cap l) : ∃ p, Packed.pack cap (build l) = .ok p ∧ Packs cap (build l) p := by
  obtain ⟨⟨p, h1, h2⟩, h3⟩ := h
  obtain ⟨b1, b2⟩ := build_spec l
  refine ⟨p, h1, b1, .packed h1, h2, ?_⟩
  intro k hk u hu
  obtain ⟨v, hv⟩ := Option.ne_none_iff_exists'.1 hk
  have := (mem_entries (build l) b1.wf k v).2 hv
  rw [b2] at this
  exact h3 _ (mem_inserts l k v this) u hu

/-! ### the relation -/

/-- `pk` and `vals` are the packed form of the entries `l`. -/
def Form (cap : Nat) (pk : List Nat) (vals : List V) (l : List (Key × V)) : Prop :=
  ∃ t, Packs cap t ⟨pk, vals⟩ ∧ entN [] t = l

/-- What is known of a handle to the prefix `q` of the contents `a`. -/
def Handle (cap : Nat) (pk : List Nat) (l : List (Key × V)) (x : Var) (y : SVar) (a : Nat) (q : Key) : Prop :=
  if y.search then ∃ (vals : List V) (r : Results V), Form cap pk vals l ∧ searchResults ⟨pk, vals⟩ q = .ok r ∧
    x.pos = (match r.node with | some n => .cell a n | none => .null) ∧ x.search = some r.buf
  else x.search = none ∧ ∃ (vals : List V) (r off : Nat), Form cap pk vals l ∧ rd pk 0 = .ok r ∧ pWalk pk q r = .ok (some off) ∧
    x.pos = .cell a off

def RelP (cap : Nat) (w : World V) (s : SWorld V) (x : Var) (y : SVar) : Prop :=
  match y.place with
  | .nothing => y.search = false ∧ x.search = none ∧ x.pos = .null
  | .node c a q => (∀ d, c = some d → x.store = .of d) ∧
      ∃ pk l, w.cells a = some pk ∧ s.body a = some l ∧ Handle cap pk l x y a q
  | .gone => True

def RelV (cap : Nat) (w : World V) (s : SWorld V) : Option Var → Option SVar → Prop
  | none, none => True
  | some x, some y => RelP cap w s x y
  | _, _ => False

structure Core (cap : Nat) (w : World V) (s : SWorld V) : Prop where
  holds : ∀ c, (w.objs c).map Object.buf = s.holds c
  next : w.next = s.next
  lt : ∀ c a, s.holds c = some a → a < s.next
  body : ∀ c a l, s.holds c = some a → s.body a = some l →
    ∃ pk vals, w.objs c = some ⟨a, vals⟩ ∧ w.cells a = some pk ∧ Form cap pk vals l
  vars : ∀ i, RelV cap w s (w.vars i) (s.vars i)

theorem core_empty (cap : Nat) : Core cap (World.empty : World V) SWorld.empty :=
  ⟨fun _ => rfl, rfl, fun _ _ h => (by cases h), fun _ _ _ h => (by cases h), fun _ => trivial⟩

theorem Core.obj {cap : Nat} {w : World V} {s : SWorld V} (hc : Core cap w s) {c a : Nat} (h : s.holds c = some a) :
    ∃ vals, w.objs c = some ⟨a, vals⟩ := by
  have := hc.holds c
  rw [h] at this
  cases ho : w.objs c with
  | none => rw [ho] at this; cases this
  | some o =>
    rw [ho] at this
    obtain ⟨b, vals⟩ := o
    simp only [Option.map_some, Option.some.injEq] at this
    exact ⟨vals, by rw [this]⟩

theorem Core.noobj {cap : Nat} {w : World V} {s : SWorld V} (hc : Core cap w s) {c : Nat} (h : s.holds c = none) :
    w.objs c = none := by
  have := hc.holds c
  rw [h] at this
  simpa using this

theorem Core.map {cap : Nat} {w : World V} {s : SWorld V} (hc : Core cap w s) {c : Nat} {l : List (Key × V)} (h : s.ents c = some l) :
    ∃ a pk vals, s.holds c = some a ∧ s.body a = some l ∧ w.objs c = some ⟨a, vals⟩ ∧ w.cells a = some pk ∧
      w.map? c = some (a, ⟨pk, vals⟩) ∧ Form cap pk vals l := by
  unfold SWorld.ents at h
  cases ha : s.holds c with
  | none => rw [ha] at h; cases h
  | some a =>
    rw [ha] at h
    obtain ⟨pk, vals, h1, h2, h3⟩ := hc.body c a l ha h
    exact ⟨a, pk, vals, rfl, h, h1, h2, by simp [World.map?, h1, h2], h3⟩

theorem Core.get {cap : Nat} {w : World V} {s : SWorld V} (hc : Core cap w s) {i : Nat} {y : SVar} (h : s.vars i = some y) :
    ∃ x, w.vars i = some x ∧ RelP cap w s x y := by
  have := hc.vars i
  rw [h] at this
  cases h1 : w.vars i with
  | none => rw [h1] at this; exact this.elim
  | some x => rw [h1] at this; exact ⟨x, rfl, this⟩

theorem relP_congr {cap : Nat} {w w' : World V} {s s' : SWorld V} (h1 : w'.cells = w.cells) (h2 : s'.body = s.body) {x : Var}
    {y : SVar} (h : RelP cap w s x y) : RelP cap w' s' x y := by
  unfold RelP at h ⊢
  split at h
  · exact h
  · rw [h1, h2]; exact h
  · trivial

theorem relV_congr {cap : Nat} {w w' : World V} {s s' : SWorld V} (h1 : w'.cells = w.cells) (h2 : s'.body = s.body)
    {x : Option Var} {y : Option SVar} (h : RelV cap w s x y) : RelV cap w' s' x y := by
  cases x <;> cases y <;> first | exact h | exact relP_congr h1 h2 h

theorem relV_map {cap : Nat} {w w' : World V} {s s' : SWorld V} (f : Var → Var) (g : SVar → SVar) {x : Option Var} {y : Option SVar}
    (h : RelV cap w s x y) (hr : ∀ x y, RelP cap w s x y → RelP cap w' s' (f x) (g y)) : RelV cap w' s' (x.map f) (y.map g) := by
  cases x <;> cases y <;> first | exact h | exact hr _ _ h

/-! ### changes of the world -/

/-- A buffer begins to exist. -/
theorem core_alloc {cap : Nat} {w : World V} {s : SWorld V} (hc : Core cap w s) (pk : List Nat) (l : Option (List (Key × V))) :
    Core cap (w.alloc pk) { s.setBody s.next l with next := s.next + 1 } := by
  refine ⟨hc.holds, by simp [World.alloc, hc.next], ?_, ?_, ?_⟩
  · intro c a h
    have := hc.lt c a h
    show a < s.next + 1
    omega
  · intro c a l' h hb
    have hlt := hc.lt c a h
    have hne : a ≠ s.next := by omega
    simp only [SWorld.setBody, if_neg hne] at hb
    obtain ⟨pk', vals, h1, h2, h3⟩ := hc.body c a l' h hb
    exact ⟨pk', vals, h1, by simp only [World.alloc, hc.next, if_neg hne]; exact h2, h3⟩
  · intro i
    have := relV_map (w' := w.alloc pk) (s' := { s.setBody s.next l with next := s.next + 1 }) id
      (fun y : SVar => { y with place := y.place.age s.next }) (hc.vars i) (by
        intro x y h
        unfold RelP at h ⊢
        cases hp : y.place with
        | nothing => rw [hp] at h; simpa [Place.age] using h
        | gone => simp [Place.age]
        | node c a q =>
          rw [hp] at h
          simp only [Place.age]
          by_cases ha : a = s.next
          · rw [if_pos ha]; trivial
          · rw [if_neg ha]
            obtain ⟨h1, pk', l', h2, h3, h4⟩ := h
            refine ⟨h1, pk', l', ?_, ?_, h4⟩
            · simp only [World.alloc, hc.next, if_neg ha]; exact h2
            · simp only [SWorld.setBody, if_neg ha]; exact h3)
    rw [Option.map_id] at this
    exact this

/-- A buffer is released. -/
theorem core_free {cap : Nat} {w : World V} {s : SWorld V} (hc : Core cap w s) (a : Nat) : Core cap (w.free a) (s.setBody a none) := by
  refine ⟨hc.holds, hc.next, hc.lt, ?_, ?_⟩
  · intro c b l' h hb
    by_cases hne : b = a
    · simp only [SWorld.setBody, if_pos hne] at hb; cases hb
    simp only [SWorld.setBody, if_neg hne] at hb
    obtain ⟨pk', vals, h1, h2, h3⟩ := hc.body c b l' h hb
    exact ⟨pk', vals, h1, by simp only [World.free, if_neg hne]; exact h2, h3⟩
  · intro i
    refine relV_map (fun x : Var => { x with pos := x.pos.mark a }) (fun y : SVar => { y with place := y.place.age a }) (hc.vars i) ?_
    intro x y h
    unfold RelP at h ⊢
    cases hp : y.place with
    | nothing => rw [hp] at h; simp only [Place.age]; exact ⟨h.1, h.2.1, by simp [h.2.2, Pos.mark]⟩
    | gone => simp [Place.age]
    | node c b q =>
      rw [hp] at h
      simp only [Place.age]
      by_cases ha : b = a
      · rw [if_pos ha]; trivial
      · rw [if_neg ha]
        obtain ⟨h1, pk', l', h2, h3, h4⟩ := h
        refine ⟨h1, pk', l', ?_, ?_, ?_⟩
        · simp only [World.free, if_neg ha]; exact h2
        · simp only [SWorld.setBody, if_neg ha]; exact h3
        · unfold Handle at h4 ⊢
          simp only
          split
          · next hs =>
            rw [if_pos hs] at h4
            obtain ⟨vals, r, g1, g2, g3, g4⟩ := h4
            refine ⟨vals, r, g1, g2, ?_, g4⟩
            rw [g3]
            cases r.node <;> simp [Pos.mark, ha]
          · next hs =>
            rw [if_neg hs] at h4
            obtain ⟨g0, vals, r, off, g1, g2, g3, g4⟩ := h4
            exact ⟨g0, vals, r, off, g1, g2, g3, by rw [g4]; simp [Pos.mark, ha]⟩

/-- An object gets other members. -/
theorem core_obj {cap : Nat} {w : World V} {s : SWorld V} (hc : Core cap w s) (c : Nat) (a : Nat) (vals : List V) (ha : a < s.next)
    (h : ∀ l, s.body a = some l → ∃ pk, w.cells a = some pk ∧ Form cap pk vals l) :
    Core cap (w.setObj c (some ⟨a, vals⟩)) (s.setHolds c (some a)) := by
  refine ⟨?_, hc.next, ?_, ?_, fun i => relV_congr (w := w) (s := s) rfl rfl (hc.vars i)⟩
  · intro d
    simp only [World.setObj, SWorld.setHolds]
    by_cases hd : d = c
    · rw [if_pos hd, if_pos hd]; rfl
    · rw [if_neg hd, if_neg hd]; exact hc.holds d
  · intro d b hb
    simp only [SWorld.setHolds] at hb
    by_cases hd : d = c
    · rw [if_pos hd] at hb; cases hb; exact ha
    · rw [if_neg hd] at hb; exact hc.lt d b hb
  · intro d b l hb hl
    simp only [World.setObj, SWorld.setHolds] at hb hl ⊢
    by_cases hd : d = c
    · rw [if_pos hd] at hb ⊢
      cases hb
      obtain ⟨pk, h1, h2⟩ := h l hl
      exact ⟨pk, vals, rfl, h1, h2⟩
    · rw [if_neg hd] at hb ⊢; exact hc.body d b l hb hl

theorem core_fresh {cap : Nat} {w : World V} {s : SWorld V} (hc : Core cap w s) (c : Nat) (p : Packed V) (l : Option (List (Key × V)))
    (h : ∀ l', l = some l' → Form cap p.pk p.vals l') : Core cap (w.fresh c p) (s.fresh c l) := by
  have := core_obj (core_alloc hc p.pk l) c s.next p.vals (by show s.next < s.next + 1; omega) (by
    intro l' hl
    simp only [SWorld.setBody, if_pos] at hl
    exact ⟨p.pk, by simp [World.alloc, hc.next], h l' hl⟩)
  rw [← hc.next] at this
  rw [World.fresh, SWorld.fresh, ← hc.next]
  exact this

theorem core_drop {cap : Nat} {w : World V} {s : SWorld V} (hc : Core cap w s) (c : Nat) : Core cap (w.drop c) (s.drop c) := by
  refine ⟨?_, hc.next, ?_, ?_, ?_⟩
  · intro d
    simp only [World.drop, SWorld.drop, World.setObj, SWorld.setHolds]
    by_cases hd : d = c
    · rw [if_pos hd, if_pos hd]; rfl
    · rw [if_neg hd, if_neg hd]; exact hc.holds d
  · intro d b hb
    simp only [SWorld.drop, SWorld.setHolds] at hb
    by_cases hd : d = c
    · rw [if_pos hd] at hb; cases hb
    · rw [if_neg hd] at hb; exact hc.lt d b hb
  · intro d b l hb hl
    simp only [World.drop, SWorld.drop, World.setObj, SWorld.setHolds] at hb hl ⊢
    by_cases hd : d = c
    · rw [if_pos hd] at hb; cases hb
    · rw [if_neg hd] at hb ⊢; exact hc.body d b l hb hl
  · intro i
    refine relV_map (fun x : Var => { x with store := x.store.mark c }) (fun y : SVar => { y with place := y.place.orphan c }) (hc.vars i) ?_
    intro x y h
    unfold RelP at h ⊢
    cases hp : y.place with
    | nothing => rw [hp] at h; simpa [Place.orphan] using h
    | gone => simp [Place.orphan]
    | node o b q =>
      rw [hp] at h
      obtain ⟨h1, pk', l', h2, h3, h4⟩ := h
      cases o with
      | none =>
        simp only [Place.orphan]
        exact ⟨fun d hd => (by cases hd), pk', l', h2, h3, h4⟩
      | some d =>
        simp only [Place.orphan]
        by_cases hd : d = c
        · rw [if_pos hd]
          exact ⟨fun d hd => (by cases hd), pk', l', h2, h3, h4⟩
        · rw [if_neg hd]
          refine ⟨?_, pk', l', h2, h3, h4⟩
          intro e he
          cases he
          rw [h1 d rfl]
          simp [Store.mark, hd]

theorem core_put {cap : Nat} {w : World V} {s : SWorld V} (hc : Core cap w s) (i : Nat) (x : Var) (y : SVar) (h : RelP cap w s x y) :
    Core cap (w.put i x) (s.put i y) := by
  refine ⟨hc.holds, hc.next, hc.lt, hc.body, fun j => ?_⟩
  apply relV_congr (w := w) (s := s) rfl rfl
  simp only [World.put, SWorld.put]
  by_cases hj : j = i
  · rw [if_pos hj, if_pos hj]; exact h
  · rw [if_neg hj, if_neg hj]; exact hc.vars j

/-! ### what a handle shows -/

theorem pWalk_append (pk : List Nat) (u : Nat) : ∀ (q : Key) (r : Nat), pWalk pk (q ++ [u]) r =
    (pWalk pk q r).bind fun x => match x with
      | none => .ok none
      | some off => pChild pk off u := by
  intro q
  induction q with
  | nil =>
    intro r
    simp only [List.nil_append, pWalk, obind_ok]
    cases pChild pk r u with
    | ok x => cases x <;> rfl
    | err e => rfl
    | ub => rfl
  | cons c q ih =>
    intro r
    simp only [List.cons_append, pWalk]
    cases pChild pk r c with
    | ok x =>
      cases x with
      | none => rfl
      | some o => simp only [obind_ok]; exact ih o
    | err e => rfl
    | ub => rfl

/-- The node at the end of a walk. -/
theorem form_node {cap : Nat} {pk : List Nat} {vals : List V} {l : List (Key × V)} (h : Form cap pk vals l) {q : Key} {r off : Nat}
    (h0 : rd pk 0 = .ok r) (hw : pWalk pk q r = .ok (some off)) :
    ∃ m : Node V, Enc cap pk vals off m ∧ m.kids.WF ∧ entN q m = under q l := by
  obtain ⟨t, hp, rfl⟩ := h
  obtain ⟨r', g0, g1, -⟩ := hp.enc
  have : r' = r := by
    have := rd_of g0
    rw [h0] at this
    cases this; rfl
  subst this
  rcases pWalk_enc q r' t g1 hp.reach.wf with ⟨-, h2⟩ | ⟨m, o, h1, h2, h3⟩
  · rw [show pWalk pk q r' = .ok none from h2] at hw; cases hw
  · rw [show pWalk pk q r' = .ok (some o) from h2] at hw
    cases hw
    exact ⟨m, h3, (findNode_wf q t m hp.reach.wf h1).1, (under_entN t hp.reach.wf q m h1).symm⟩

/-- The child of a node. -/
theorem form_child {cap : Nat} {pk : List Nat} {vals : List V} {l : List (Key × V)} (h : Form cap pk vals l) {q : Key} {r off : Nat}
    (h0 : rd pk 0 = .ok r) (hw : pWalk pk q r = .ok (some off)) (u : Nat) :
    (under (q ++ [u]) l = [] ∧ pChild pk off u = .ok none) ∨
    (under (q ++ [u]) l ≠ [] ∧ ∃ off', pChild pk off u = .ok (some off') ∧ pWalk pk (q ++ [u]) r = .ok (some off')) := by
  obtain ⟨t, hp, rfl⟩ := h
  obtain ⟨r', g0, g1, -⟩ := hp.enc
  have : r' = r := by
    have := rd_of g0
    rw [h0] at this
    cases this; rfl
  subst this
  have hf := found_iff t hp.reach.wf (q ++ [u]) (by simp)
  have ha := pWalk_append pk u q r'
  rw [hw, obind_ok] at ha
  simp only at ha
  rcases pWalk_enc (q ++ [u]) r' t g1 hp.reach.wf with ⟨h1, h2⟩ | ⟨m, o, h1, h2, h3⟩
  · left
    rw [h1] at hf
    refine ⟨by by_contra hc; exact absurd (hf.2 hc) (by simp), ?_⟩
    rw [← ha]; exact h2
  · right
    rw [h1] at hf
    exact ⟨hf.1 rfl, o, by rw [← ha]; exact h2, h2⟩

/-- The number of values is that of the entries. -/
theorem form_length {cap : Nat} {pk : List Nat} {vals : List V} {l : List (Key × V)} (h : Form cap pk vals l) : vals.length = l.length := by
  obtain ⟨t, hp, rfl⟩ := h
  obtain ⟨r, -, -, h3⟩ := hp.enc
  rw [length_entN]; exact h3

/-- The object with the values shows the entries with the prefix. -/
theorem form_results {cap : Nat} {pk : List Nat} {vals : List V} {l : List (Key × V)} (h : Form cap pk vals l) (q : Key) :
    ∃ r, searchResults ⟨pk, vals⟩ q = .ok r ∧ r.store = some vals ∧ ∃ b, ∀ fuel ≥ b, r.iterate cap fuel pk = .ok (under q l) := by
  obtain ⟨t, hp, rfl⟩ := h
  obtain ⟨r, l, h1, ⟨b, h2⟩, h3, h4⟩ := C61_results cap t _ hp q
  refine ⟨r, h1, ?_, b, ?_⟩
  · unfold searchResults at h1
    cases e : pPrefixSearch ⟨pk, vals⟩ q with
    | err x => rw [e] at h1; cases h1
    | ub => rw [e] at h1; cases h1
    | ok n => rw [e, obind_ok] at h1; cases h1; rfl
  · have : l = under q (entN [] t) := by
      apply asc_ext h3 (asc_filter (asc_entN [] t hp.reach.wf) _)
      rintro ⟨k, v⟩
      rw [h4, ← under, mem_under, mem_entries t hp.reach.wf]
      exact And.comm
    rw [← this]; exact h2

/-- The node and the prefix of a result do not depend on the values. -/
theorem results_indep {pk : List Nat} {vals vals' : List V} (h : vals.length = vals'.length) {q : Key} {r : Results V}
    (hr : searchResults ⟨pk, vals⟩ q = .ok r) : searchResults ⟨pk, vals'⟩ q = .ok ⟨some vals', r.node, r.buf⟩ := by
  have he : vals.isEmpty = vals'.isEmpty := by
    cases vals <;> cases vals' <;> simp_all
  have hp : pPrefixSearch ⟨pk, vals'⟩ q = pPrefixSearch ⟨pk, vals⟩ q := by unfold pPrefixSearch; simp only [he]
  unfold searchResults at hr ⊢
  rw [hp]
  cases e : pPrefixSearch ⟨pk, vals⟩ q with
  | err x => rw [e] at hr; cases hr
  | ub => rw [e] at hr; cases hr
  | ok n =>
    rw [e, obind_ok] at hr
    cases hr
    simp only [obind_ok, he]

/-! ### one call -/

theorem ask_ok {cap : Nat} {w : World V} {s : SWorld V} (hc : Core cap w s) {i : Nat} {y : SVar} {l : List (Key × V)}
    (h1 : s.vars i = some y) (h2 : y.search = false) (h3 : s.seen y.place = some l) (dflt : Outcome (Ans V))
    (f : List Nat → Nat → Store → Outcome (Ans V)) :
    (y.place = .nothing ∧ l = [] ∧ w.ask i dflt f = dflt.bind fun a => .ok (w, a)) ∨
    ∃ c a q pk l' st off r, y.place = .node c a q ∧ (∀ d, c = some d → st = .of d) ∧ w.cells a = some pk ∧ s.body a = some l' ∧
      l = under q l' ∧ rd pk 0 = .ok r ∧ pWalk pk q r = .ok (some off) ∧ (∃ vals : List V, Form cap pk vals l') ∧
      w.vars i = some ⟨st, .cell a off, none⟩ ∧ w.ask i dflt f = (f pk off st).bind fun a => .ok (w, a) := by
  obtain ⟨x, hx, hr⟩ := hc.get h1
  obtain ⟨st, pos, se⟩ := x
  unfold RelP at hr
  cases hp : y.place with
  | gone => rw [hp] at h3; cases h3
  | nothing =>
    rw [hp] at hr h3
    obtain ⟨-, g1, g2⟩ := hr
    simp only at g1 g2
    subst g1 g2
    left
    simp only [SWorld.seen, Option.some.injEq] at h3
    exact ⟨rfl, h3.symm, by simp [World.ask, hx]⟩
  | node c a q =>
    rw [hp] at hr h3
    right
    obtain ⟨g1, pk, l', g2, g3, g4⟩ := hr
    unfold Handle at g4
    rw [h2, if_neg (by simp)] at g4
    obtain ⟨g5, vals, r, off, g6, g7, g8, g9⟩ := g4
    simp only at g1 g5 g9
    subst g5 g9
    simp only [SWorld.seen, g3, Option.map_some, Option.some.injEq] at h3
    exact ⟨c, a, q, pk, l', st, off, r, rfl, g1, g2, g3, h3.symm, g7, g8, ⟨vals, g6⟩, hx, by simp [World.ask, hx, g2]⟩

theorem step_ok (cap : Nat) {w : World V} {s : SWorld V} (hc : Core cap w s) (c : Cmd V) (hl : Legal cap s c) :
    ∃ w' a b, (∀ fuel ≥ b, step cap fuel w c = .ok (w', a)) ∧ sAns s c a ∧ Core cap w' (sStep s c) := by
  have hcopy : ∀ {pk vals l}, Form cap pk vals l → ∃ q : Packed V, (∃ n, ∀ fuel ≥ n, copy cap fuel ⟨pk, vals⟩ = .ok q) ∧
      Form cap q.pk q.vals l := by
    rintro pk vals l ⟨t, hp, rfl⟩
    obtain ⟨q, h1, -, h2⟩ := C60_copy cap t _ hp
    exact ⟨q, h1, t, h2, rfl⟩
  cases c with
  | make c =>
    refine ⟨_, _, 0, fun fuel _ => by simp only [step, hc.noobj hl]; rfl, rfl, ?_⟩
    exact core_fresh hc c defaultPacked none (fun l' h => (by cases h))
  | pack c l =>
    obtain ⟨p, h1, h2⟩ := packs_build hl.2
    refine ⟨_, _, 0, fun fuel _ => by simp only [step, hc.noobj hl.1, h1, obind_ok]; rfl, rfl, ?_⟩
    refine core_fresh hc c p _ ?_
    intro l' h
    cases h
    exact ⟨_, h2, (build_spec l).2⟩
  | copyNew c d =>
    obtain ⟨l, h1⟩ := Option.ne_none_iff_exists'.1 hl.2
    obtain ⟨a, pk, vals, g1, g2, g3, g4, g5, g6⟩ := hc.map h1
    obtain ⟨q, ⟨n, e1⟩, e2⟩ := hcopy g6
    refine ⟨w.fresh c q, .unit, n, fun fuel hf => by simp only [step, hc.noobj hl.1, g5, e1 fuel hf, obind_ok], rfl, ?_⟩
    refine core_fresh hc c q _ ?_
    intro l' h
    rw [h1] at h; cases h
    exact e2
  | moveNew c d =>
    obtain ⟨a, ha⟩ := Option.ne_none_iff_exists'.1 hl.2
    obtain ⟨vals, ho⟩ := hc.obj ha
    refine ⟨_, _, 0, fun fuel _ => by simp only [step, hc.noobj hl.1, ho]; rfl, rfl, ?_⟩
    simp only [sStep, ha]
    have h1 := core_fresh hc d ⟨[1, 0, 0], []⟩ none (fun l' h => (by cases h))
    have hlt := hc.lt d a ha
    refine core_obj h1 c a vals (by show a < s.next + 1; omega) ?_
    intro l hb
    have hne : a ≠ s.next := by omega
    simp only [SWorld.fresh, SWorld.setHolds, SWorld.setBody, if_neg hne] at hb
    obtain ⟨pk, vals', e1, e2, e3⟩ := hc.body d a l ha hb
    rw [ho] at e1
    cases e1
    exact ⟨pk, by simp only [World.fresh, World.alloc, World.setObj, hc.next, if_neg hne]; exact e2, e3⟩
  | destroy c =>
    obtain ⟨a, ha⟩ := Option.ne_none_iff_exists'.1 (show s.holds c ≠ none from hl)
    obtain ⟨vals, ho⟩ := hc.obj ha
    refine ⟨_, _, 0, fun fuel _ => by simp only [step, ho]; rfl, rfl, ?_⟩
    simp only [sStep, ha]
    exact core_drop (core_free hc a) c
  | assign c d =>
    obtain ⟨l, h1⟩ := Option.ne_none_iff_exists'.1 hl.2
    obtain ⟨a, pk, vals, g1, g2, g3, g4, g5, g6⟩ := hc.map h1
    obtain ⟨q, ⟨n, e1⟩, e2⟩ := hcopy g6
    obtain ⟨old, hold⟩ := Option.ne_none_iff_exists'.1 hl.1
    obtain ⟨vals', ho⟩ := hc.obj hold
    refine ⟨(w.fresh c q).free old, .unit, n, fun fuel hf => by simp only [step, ho, g5, e1 fuel hf, obind_ok], rfl, ?_⟩
    simp only [sStep, hold]
    refine core_free (core_fresh hc c q _ ?_) old
    intro l' h
    rw [h1] at h; cases h
    exact e2
  | assignMove c d =>
    obtain ⟨a, ha⟩ := Option.ne_none_iff_exists'.1 hl.2
    obtain ⟨vals, ho⟩ := hc.obj ha
    have h1 := core_fresh hc d ⟨[1, 0, 0], []⟩ none (fun l' h => (by cases h))
    have hex : ∃ old, (s.fresh d none).holds c = some old := by
      simp only [SWorld.fresh, SWorld.setHolds, SWorld.setBody]
      by_cases hcd : c = d
      · rw [if_pos hcd]; exact ⟨_, rfl⟩
      · rw [if_neg hcd]; exact Option.ne_none_iff_exists'.1 hl.1
    obtain ⟨old, hold⟩ := hex
    obtain ⟨vals', ho'⟩ := h1.obj hold
    refine ⟨_, _, 0, fun fuel _ => by simp only [step, ho, ho']; rfl, rfl, ?_⟩
    simp only [sStep, hold, ha]
    have hlt := hc.lt d a ha
    refine core_free (core_obj h1 c a vals (by show a < s.next + 1; omega) ?_) old
    intro l hb
    have hne : a ≠ s.next := by omega
    simp only [SWorld.fresh, SWorld.setHolds, SWorld.setBody, if_neg hne] at hb
    obtain ⟨pk, vals', e1, e2, e3⟩ := hc.body d a l ha hb
    rw [ho] at e1
    cases e1
    exact ⟨pk, by simp only [World.fresh, World.alloc, World.setObj, hc.next, if_neg hne]; exact e2, e3⟩
  | swap c d =>
    obtain ⟨a, ha⟩ := Option.ne_none_iff_exists'.1 hl.1
    obtain ⟨b, hb⟩ := Option.ne_none_iff_exists'.1 hl.2
    obtain ⟨vs, ho⟩ := hc.obj ha
    obtain ⟨us, ho'⟩ := hc.obj hb
    refine ⟨_, _, 0, fun fuel _ => by simp only [step, ho, ho']; rfl, rfl, ?_⟩
    simp only [sStep, ha, hb]
    refine core_obj (core_obj hc c b us (hc.lt d b hb) ?_) d a vs (hc.lt c a ha) ?_
    · intro l h
      obtain ⟨pk, vals', e1, e2, e3⟩ := hc.body d b l hb h
      rw [ho'] at e1; cases e1
      exact ⟨pk, e2, e3⟩
    · intro l h
      obtain ⟨pk, vals', e1, e2, e3⟩ := hc.body c a l ha h
      rw [ho] at e1; cases e1
      exact ⟨pk, e2, e3⟩
  | size c =>
    obtain ⟨l, h1⟩ := Option.ne_none_iff_exists'.1 (show s.ents c ≠ none from hl)
    obtain ⟨a, pk, vals, g1, g2, g3, g4, g5, g6⟩ := hc.map h1
    exact ⟨w, .num vals.length, 0, fun fuel _ => by simp only [step, g3], ⟨l, h1, by rw [form_length g6]⟩, hc⟩
  | search i c pre =>
    obtain ⟨l, h1⟩ := Option.ne_none_iff_exists'.1 (show s.ents c ≠ none from hl)
    obtain ⟨a, pk, vals, g1, g2, g3, g4, g5, g6⟩ := hc.map h1
    obtain ⟨r, e1, e2, -⟩ := form_results g6 pre
    refine ⟨_, _, 0, fun fuel _ => by simp only [step, g5, e1, obind_ok]; rfl, rfl, ?_⟩
    simp only [sStep, g1]
    refine core_put hc i _ _ ?_
    refine ⟨fun d hd => (by cases hd; rfl), pk, l, g4, g2, ?_⟩
    unfold Handle
    rw [if_pos rfl]
    exact ⟨vals, r, g6, e1, rfl, rfl⟩
  | rootNode i c =>
    obtain ⟨l, h1⟩ := Option.ne_none_iff_exists'.1 (show s.ents c ≠ none from hl)
    obtain ⟨a, pk, vals, g1, g2, g3, g4, g5, g6⟩ := hc.map h1
    have hr : ∃ r, rd pk 0 = .ok r := by
      obtain ⟨t, hp, -⟩ := g6
      obtain ⟨r, h0, -⟩ := hp.enc
      exact ⟨r, rd_of h0⟩
    obtain ⟨r, hr⟩ := hr
    refine ⟨_, _, 0, fun fuel _ => by simp only [step, g5, hr, obind_ok]; rfl, rfl, ?_⟩
    simp only [sStep, g1]
    refine core_put hc i _ _ ?_
    refine ⟨fun d hd => (by cases hd; rfl), pk, l, g4, g2, ?_⟩
    unfold Handle
    rw [if_neg (by simp)]
    exact ⟨rfl, vals, r, r, g6, hr, rfl, rfl⟩
  | child i j u =>
    obtain ⟨y, h1, h2, h3⟩ := hl
    obtain ⟨l, h3⟩ := Option.ne_none_iff_exists'.1 h3
    rcases ask_ok hc h1 h2 h3 (.ok .unit) (fun _ _ _ => .ok .unit) with ⟨e1, rfl, -⟩ |
      ⟨c, a, q, pk, l', st, off, r, e1, e2, e3, e4, e5, e6, e7, ⟨vals, e8⟩, e9, -⟩
    · obtain ⟨x, hx, hr⟩ := hc.get h1
      obtain ⟨st, pos, se⟩ := x
      unfold RelP at hr
      rw [e1] at hr
      obtain ⟨-, f1, f2⟩ := hr
      simp only at f1 f2
      subst f1 f2
      refine ⟨_, _, 0, fun fuel _ => by simp only [step, hx]; rfl, rfl, ?_⟩
      simp only [sStep, h1, e1, SWorld.below]
      exact core_put hc i _ _ ⟨rfl, rfl, rfl⟩
    · rcases form_child e8 e6 e7 u with ⟨f1, f2⟩ | ⟨f1, off', f2, f3⟩
      · refine ⟨_, _, 0, fun fuel _ => by simp only [step, e9, e3, f2, obind_ok]; rfl, rfl, ?_⟩
        simp only [sStep, h1, e1, SWorld.below, e4, if_pos f1]
        exact core_put hc i _ _ ⟨rfl, rfl, rfl⟩
      · refine ⟨_, _, 0, fun fuel _ => by simp only [step, e9, e3, f2, obind_ok]; rfl, rfl, ?_⟩
        simp only [sStep, h1, e1, SWorld.below, e4, if_neg f1]
        refine core_put hc i _ _ ⟨e2, pk, l', e3, e4, ?_⟩
        unfold Handle
        rw [if_neg (by simp)]
        exact ⟨rfl, vals, r, off', e8, e6, f3, rfl⟩
  | copyNode i j =>
    obtain ⟨y, h1, h2, h3⟩ := hl
    obtain ⟨x, hx, hr⟩ := hc.get h1
    have hn : x.search = none := by
      unfold RelP at hr
      split at hr
      · exact hr.2.1
      · obtain ⟨-, pk, l, -, -, g⟩ := hr
        unfold Handle at g
        rw [h2, if_neg (by simp)] at g
        exact g.1
      · next hp => exact absurd hp h3
    obtain ⟨st, pos, se⟩ := x
    simp only at hn
    subst hn
    refine ⟨_, _, 0, fun fuel _ => by simp only [step, hx]; rfl, rfl, ?_⟩
    simp only [sStep, h1]
    exact core_put hc i _ _ hr
  | loop i =>
    obtain ⟨y, h1, h2, h3, h4⟩ := hl
    obtain ⟨l, h3⟩ := Option.ne_none_iff_exists'.1 h3
    obtain ⟨x, hx, hr⟩ := hc.get h1
    obtain ⟨st, pos, se⟩ := x
    unfold RelP at hr
    cases hp : y.place with
    | gone => rw [hp] at h4; exact h4.elim
    | nothing => rw [hp] at h4; exact h4.elim
    | node c a q =>
      rw [hp] at hr h4 h3
      cases c with
      | none => exact h4.elim
      | some c =>
        obtain ⟨g1, pk, l', g2, g3, g4⟩ := hr
        have g1 := g1 c rfl
        unfold Handle at g4
        rw [if_pos h2] at g4
        obtain ⟨vals, r, g5, g6, g7, g8⟩ := g4
        simp only at g1 g7 g8
        subst g1 g8
        obtain ⟨pk', vals', e1, e2, e3⟩ := hc.body c a l' h4 g3
        rw [g2] at e2
        cases e2
        obtain ⟨r', f1, f2, b, f3⟩ := form_results e3 q
        have hi := results_indep (by rw [form_length g5, form_length e3]) (vals' := vals') g6
        rw [f1] at hi
        cases hi
        simp only [SWorld.seen, g3, Option.map_some, Option.some.injEq] at h3
        cases hn : r.node with
        | none =>
          rw [hn] at g7 f3
          simp only at g7
          subst g7
          refine ⟨w, .list [], b, fun fuel _ => by simp only [step, hx], ⟨y, under q l', h1, by simp [hp, SWorld.seen, g3], ?_⟩, hc⟩
          have := f3 b (Nat.le_refl _)
          simp only [Results.iterate, Outcome.ok.injEq] at this
          rw [← this]
        | some n =>
          rw [hn] at g7 f3
          simp only at g7
          subst g7
          refine ⟨w, .list (under q l'), b, fun fuel hf => ?_, ⟨y, under q l', h1, by simp [hp, SWorld.seen, g3], rfl⟩, hc⟩
          simp only [step, hx, g2, World.store?, e1, Option.map_some, f3 fuel hf, obind_ok]
  | valid i =>
    obtain ⟨y, h1, h2, h3⟩ := hl
    obtain ⟨x, hx, hr⟩ := hc.get h1
    obtain ⟨st, pos, se⟩ := x
    unfold RelP at hr
    cases hp : y.place with
    | gone => exact absurd hp h3
    | nothing =>
      rw [hp] at hr
      obtain ⟨-, g1, g2⟩ := hr
      simp only at g1 g2
      subst g1 g2
      exact ⟨w, _, 0, fun fuel _ => by simp only [step, hx]; rfl, ⟨y, h1, by simp [hp]⟩, hc⟩
    | node c a q =>
      rw [hp] at hr
      obtain ⟨-, pk, l, -, -, g⟩ := hr
      unfold Handle at g
      rw [h2, if_neg (by simp)] at g
      obtain ⟨g1, -, -, off, -, -, -, g2⟩ := g
      simp only at g1 g2
      subst g1 g2
      exact ⟨w, _, 0, fun fuel _ => by simp only [step, hx]; rfl, ⟨y, h1, by simp [hp]⟩, hc⟩
  | hasChild i =>
    obtain ⟨y, h1, h2, h3⟩ := hl
    obtain ⟨l, h3⟩ := Option.ne_none_iff_exists'.1 h3
    rcases ask_ok hc h1 h2 h3 (.ok (.bool false)) (fun pk off _ =>
      (rd pk (off + 1)).bind fun n => .ok (.bool (decide (0 < n)))) with ⟨e1, rfl, e0⟩ |
      ⟨c, a, q, pk, l', st, off, r, e1, e2, e3, e4, e5, e6, e7, ⟨vals, e8⟩, e9, e0⟩
    · exact ⟨w, .bool false, 0, fun fuel _ => by simp only [step, e0, obind_ok], ⟨y, _, h1, h3, rfl⟩, hc⟩
    · obtain ⟨m, f1, f2, f3⟩ := form_node e8 e6 e7
      rw [rd_of f1.head.size, obind_ok, obind_ok] at e0
      refine ⟨w, _, 0, fun fuel _ => by simp only [step, e0]; rfl, ⟨y, l, h1, h3, ?_⟩, hc⟩
      have ha := any_child m q f2
      rw [e5, e1, ← f3]
      show _ = Ans.bool ((entN q m).any fun e => decide (e.1 ≠ q))
      rw [ha]
      cases hk : m.kids with
      | nil => rfl
      | cons x y z t => simp [Kids.length, Kids.isEmpty]
  | hasValue i =>
    obtain ⟨y, h1, h2, h3⟩ := hl
    obtain ⟨l, h3⟩ := Option.ne_none_iff_exists'.1 h3
    rcases ask_ok hc h1 h2 h3 (.ok (.bool false)) (fun pk off _ =>
      (rd pk off).bind fun n => .ok (.bool (decide (n ≠ nullValue cap)))) with ⟨e1, rfl, e0⟩ |
      ⟨c, a, q, pk, l', st, off, r, e1, e2, e3, e4, e5, e6, e7, ⟨vals, e8⟩, e9, e0⟩
    · exact ⟨w, .bool false, 0, fun fuel _ => by simp only [step, e0, obind_ok], ⟨y, _, h1, h3, rfl⟩, hc⟩
    · obtain ⟨m, f1, f2, f3⟩ := form_node e8 e6 e7
      rcases f1.head.rd_val with ⟨v1, v2⟩ | ⟨n, v1, v2, v3, v4⟩
      · rw [v2, obind_ok, obind_ok] at e0
        refine ⟨w, _, 0, fun fuel _ => by simp only [step, e0]; rfl, ⟨y, l, h1, h3, ?_⟩, hc⟩
        rw [e5, e1, ← f3]
        simp only [Place.key]
        rw [lookup_self m q f2, v1]; simp
      · rw [v2, obind_ok, obind_ok] at e0
        refine ⟨w, _, 0, fun fuel _ => by simp only [step, e0]; rfl, ⟨y, l, h1, h3, ?_⟩, hc⟩
        rw [e5, e1, ← f3]
        simp only [Place.key]
        rw [lookup_self m q f2, v1]; simp [v3]
  | value i =>
    obtain ⟨y, l, h1, h2, h3, h4, h5⟩ := hl
    rcases ask_ok hc h1 h2 h3 .ub (fun pk off s =>
      (rd pk off).bind fun n => match w.store? s with
        | some vals => match vals[n]? with
          | some v => .ok (.val v)
          | none => .ub
        | none => .ub) with ⟨e1, rfl, e0⟩ |
      ⟨c, a, q, pk, l', st, off, r, e1, e2, e3, e4, e5, e6, e7, -, e9, e0⟩
    · cases h5
    · rw [e1] at h4
      cases c with
      | none => exact h4.elim
      | some c =>
        have e2 := e2 c rfl
        subst e2
        obtain ⟨pk', vals', k1, k2, k3⟩ := hc.body c a l' h4 e4
        rw [e3] at k2
        cases k2
        obtain ⟨m, f1, f2, f3⟩ := form_node k3 e6 e7
        obtain ⟨v, hv⟩ := Option.isSome_iff_exists.1 h5
        have hm : m.val = some v := by
          rw [← lookup_self m q f2, f3, ← e5, ← hv, e1]; rfl
        rcases f1.head.rd_val with ⟨v1, v2⟩ | ⟨n, v1, v2, v3, v4⟩
        · rw [hm] at v1; cases v1
        · rw [hm] at v4
          rw [v2, obind_ok] at e0
          simp only [World.store?, k1, Option.map_some, ← v4, obind_ok] at e0
          exact ⟨w, _, 0, fun fuel _ => by simp only [step]; exact e0, ⟨y, l, v, h1, h3, hv, rfl⟩, hc⟩

theorem run_ok (cap : Nat) : ∀ (p : List (Cmd V)) (w : World V) (s : SWorld V), Core cap w s → LegalRun cap s p →
    ∃ w' as b, (∀ fuel ≥ b, run cap fuel w p = .ok (w', as)) ∧ Answers s p as ∧ Core cap w' (p.foldl sStep s) := by
  intro p
  induction p with
  | nil => intro w s hc _; exact ⟨w, [], 0, fun _ _ => rfl, rfl, hc⟩
  | cons c cs ih =>
    intro w s hc hl
    obtain ⟨w1, a, b1, h1, h2, h3⟩ := step_ok cap hc c hl.1
    obtain ⟨w2, as, b2, h4, h5, h6⟩ := ih w1 _ h3 hl.2
    refine ⟨w2, a :: as, max b1 b2, fun fuel hf => ?_, ⟨a, as, rfl, h2, h5⟩, h6⟩
    simp only [run, h1 fuel (by omega), obind_ok, h4 fuel (by omega)]

/-! ### C77 -/

/-- C77: a program with several packed maps, search results and node handles is told what the specification says.
Partial: of a kept handle only the keys may be asked after its contents went to another object (`C77_swap_fails`,
`C77_move_fails`), and a default-constructed or moved-from map may not be searched or copied (`C77_default_fails`). -/
theorem C77_objects_partial (cap : Nat) (p : List (Cmd V)) (h : LegalRun cap SWorld.empty p) :
    ∃ as, (∃ b, ∀ fuel ≥ b, answers cap fuel p = .ok as) ∧ Answers SWorld.empty p as := by
  obtain ⟨w, as, b, h1, h2, -⟩ := run_ok cap p World.empty SWorld.empty (core_empty cap) h
  exact ⟨as, ⟨b, fun fuel hf => by rw [answers, h1 fuel hf]; rfl⟩, h2⟩

/-- Two maps; a result and handles of the first are kept while contents are copied, swapped and moved. -/
def tour : List (Cmd Nat) := [.pack 0 [([97], 1), ([97, 98], 2), ([98], 3), ([], 0)], .pack 1 [([1], 50), ([2], 60)], .search 0 0 [97],
  .rootNode 1 0, .child 2 1 97, .child 3 1 99, .valid 3, .copyNew 2 0, .swap 0 1, .hasValue 2, .hasChild 2, .child 4 2 98,
  .copyNode 5 4, .swap 1 0, .loop 0, .value 5, .moveNew 3 1, .assignMove 1 3, .make 4, .assign 4 2, .search 6 4 [], .loop 6, .size 4,
  .moveNew 5 0, .destroy 0, .hasValue 5, .assignMove 5 5, .hasChild 2, .rootNode 7 5, .value 7]

theorem tour_legal : LegalRun 256 SWorld.empty tour := by
  unfold tour
  simp only [LegalRun]
  refine ⟨?_, ?_, ?_, ?_, ?_, ?_, ?_, ?_, ?_, ?_, ?_, ?_, ?_, ?_, ?_, ?_, ?_, ?_, ?_, ?_, ?_, ?_, ?_, ?_, ?_, ?_, ?_, ?_, ?_, ?_, trivial⟩
  all_goals unfold Legal
  all_goals first
    | decide +kernel
    | exact ⟨by decide +kernel, ⟨_, rfl, by decide +kernel⟩, by decide +kernel⟩
    | exact ⟨_, rfl, rfl, by decide +kernel⟩
    | exact ⟨_, rfl, rfl, by decide +kernel, rfl⟩
    | exact ⟨_, _, rfl, rfl, rfl, rfl, by decide +kernel⟩

example : answers 256 40 tour = .ok [.unit, .unit, .unit, .unit, .unit, .unit, .bool false, .unit, .unit, .bool true, .bool true,
    .unit, .unit, .unit, .list [([97], 1), ([97, 98], 2)], .val 2, .unit, .unit, .unit, .unit, .unit,
    .list [([], 0), ([97], 1), ([97, 98], 2), ([98], 3)], .num 4, .unit, .unit, .bool true, .unit, .bool true, .unit, .val 0] := by
  decide +kernel

/-! ### where the code differs -/

theorem run_append (cap fuel : Nat) (q : List (Cmd V)) : ∀ (p : List (Cmd V)) (w w' : World V) (as : List (Ans V)),
    run cap fuel w p = .ok (w', as) → run cap fuel w (p ++ q) = (run cap fuel w' q).bind fun y => .ok (y.1, as ++ y.2) := by
  intro p
  induction p with
  | nil =>
    intro w w' as h
    cases h
    simp only [List.nil_append]
    cases run cap fuel w q <;> rfl
  | cons c cs ih =>
    intro w w' as h
    simp only [run] at h
    simp only [List.cons_append, run]
    cases e : step cap fuel w c with
    | err x => rw [e] at h; cases h
    | ub => rw [e] at h; cases h
    | ok x =>
      rw [e, obind_ok] at h
      cases e2 : run cap fuel x.1 cs with
      | err z => rw [e2] at h; cases h
      | ub => rw [e2] at h; cases h
      | ok y =>
        rw [e2, obind_ok] at h
        cases h
        rw [obind_ok, ih x.1 y.1 y.2 e2]
        cases run cap fuel y.1 q <;> rfl

/-- C77 does not hold in general: after any program, when the map from which a handle with a value was obtained is moved to a
new object, reading the value is undefined, although the contents exist unchanged in the new object. -/
theorem C77_move_fails (cap : Nat) (p : List (Cmd V)) (h : LegalRun cap SWorld.empty p) (i c d a : Nat) (q : Key)
    (h1 : (p.foldl sStep SWorld.empty).vars i = some ⟨.node (some c) a q, false⟩)
    (h2 : (p.foldl sStep SWorld.empty).holds c = some a) (h3 : (p.foldl sStep SWorld.empty).holds d = none) :
    ∃ b, ∀ fuel ≥ b, answers cap fuel (p ++ [.moveNew d c, .value i]) = .ub := by
  obtain ⟨w, as, b, e1, -, hc⟩ := run_ok cap p World.empty SWorld.empty (core_empty cap) h
  obtain ⟨x, hx, hr⟩ := hc.get h1
  obtain ⟨st, pos, se⟩ := x
  obtain ⟨g1, pk, l, g2, -, g3⟩ := hr
  unfold Handle at g3
  rw [if_neg (by simp)] at g3
  obtain ⟨g4, vals, r, off, g5, g6, g7, g8⟩ := g3
  have g1 := g1 c rfl
  simp only at g1 g4 g8
  subst g1 g4 g8
  obtain ⟨vs, ho⟩ := hc.obj h2
  have hlt := hc.lt c a h2
  have hne : a ≠ w.next := by have := hc.next; omega
  have hcd : c ≠ d := by rintro rfl; rw [h2] at h3; cases h3
  refine ⟨b, fun fuel hf => ?_⟩
  rw [answers, run_append cap fuel _ p _ _ _ (e1 fuel hf)]
  simp only [run, step, hc.noobj h3, ho, obind_ok]
  have hm : ∃ n, rd pk off = .ok n := by
    obtain ⟨m, k1, -, -⟩ := form_node g5 g6 g7
    rcases k1.head.rd_val with ⟨-, v⟩ | ⟨n, -, v, -, -⟩
    · exact ⟨_, v⟩
    · exact ⟨_, v⟩
  obtain ⟨n, hm⟩ := hm
  simp [World.ask, World.fresh, World.alloc, World.setObj, hx, hne, g2, hm, World.store?, hcd]

/-- The hypotheses are met by a map with one entry, whose value can be read before the move. -/
def oneEntry : List (Cmd Nat) := [.pack 0 [([97], 1)], .rootNode 0 0, .child 1 0 97]

example : ∃ b, ∀ fuel ≥ b, answers 256 fuel (oneEntry ++ [.moveNew 1 0, .value 1]) = .ub := by
  refine C77_move_fails 256 oneEntry ?_ 1 0 1 0 [97] (by decide +kernel) rfl rfl
  unfold oneEntry
  simp only [LegalRun]
  exact ⟨⟨by decide +kernel, ⟨_, rfl, by decide +kernel⟩, by decide +kernel⟩, by unfold Legal; decide +kernel,
    ⟨_, rfl, rfl, by decide +kernel⟩, trivial⟩

example : answers 256 20 (oneEntry ++ [.value 1]) = .ok [.unit, .unit, .unit, .val 1] ∧
    answers 256 20 (oneEntry ++ [.moveNew 1 0, .value 1]) = .ub := by decide +kernel

/-- C77 does not hold in general: after `swap` a kept handle and a kept result show the keys of their contents with the values of the
other map. -/
theorem C77_swap_fails : answers (V := Nat) 256 40 [.pack 0 [([97], 1), ([97, 98], 2)], .pack 1 [([1], 50), ([2], 60)], .rootNode 0 0,
    .child 1 0 97, .search 2 0 [97], .value 1, .loop 2, .swap 0 1, .value 1, .loop 2] =
    .ok [.unit, .unit, .unit, .unit, .unit, .val 1, .list [([97], 1), ([97, 98], 2)], .unit, .val 60,
      .list [([97], 60), ([97, 98], 50)]] := by decide +kernel

/-- C77 does not hold in general: even `swap` with a copy of the same map changes the values that a kept result shows. -/
theorem C77_swap_copy_fails : answers (V := Nat) 256 40 [.pack 0 [([97], 1), ([97, 98], 2), ([98], 3), ([], 0)], .copyNew 1 0,
    .search 0 0 [97], .loop 0, .swap 0 1, .loop 0] =
    .ok [.unit, .unit, .unit, .list [([97], 1), ([97, 98], 2)], .unit, .list [([97], 1), ([97, 98], 0)]] := by decide +kernel

/-- C77 does not hold in general: the root node of a default-constructed map, which is empty, claims to have a value; reading it is
undefined.  The same after a move. -/
theorem C77_default_fails : answers (V := Nat) 256 0 [.make 0, .rootNode 0 0, .hasValue 0] = .ok [.unit, .unit, .bool true] ∧
    answers (V := Nat) 256 0 [.make 0, .rootNode 0 0, .value 0] = .ub ∧
    answers (V := Nat) 256 0 [.pack 0 [([97], 1)], .moveNew 1 0, .rootNode 0 0, .hasValue 0] = .ok [.unit, .unit, .unit, .bool true] := by
  decide +kernel

end Mdds.Packed.Obj
