import Verif.RTree.Search
/-!
Changing a stored value through an iterator of a search result (C78).

Source: `/repo/include/mdds/rtree.hpp` 494-518: `iterator::operator*` and `operator->` return a reference to the value of the value
node, through which the program may assign.
-/
namespace Mdds.RTree

open Node

variable {D : Nat} {V : Type}

/-- `*it = v` (rtree.hpp 509-512), where the iterator designates the value node at `path`.  The assignment is that of the value type;
an iterator that does not designate a value of this tree is reported. -/
def writeAt (v : V) : List Nat → Node D V → Except Fault (Node D V)
  | [], .val b p _ => .ok (.val b p v)
  | i :: r, .dir l b p c f ks =>
    match ks[i]? with
    | some k => (writeAt v r k).map fun k' => .dir l b p c f (ks.set i k')
    | none => .error .badIterator
  | _, _ => .error .badIterator

/-- The results of a search after the write: the one at `path` shows the new value. -/
def refresh (path : List Nat) (v : V) (x : Hit D V) : Hit D V := if x.path = path then { x with v := v } else x

theorem split_at {α : Type} {ks : List α} {i : Nat} {k : α} (h : ks[i]? = some k) :
    ∃ l r, ks = l ++ k :: r ∧ l.length = i ∧ ∀ k', ks.set i k' = l ++ k' :: r := by
  obtain ⟨hi, hk⟩ := List.getElem?_eq_some_iff.1 h
  refine ⟨ks.take i, ks.drop (i + 1), ?_, by simp; omega, ?_⟩
  · rw [← hk, List.getElem_cons_drop, List.take_append_drop]
  · intro k'; rw [List.set_eq_take_append_cons_drop, if_pos hi]

theorem searchL_append (dc vc : Box D → Bool) (depth : Nat) (path : List Nat) : ∀ (a b : List (Node D V)) (i : Nat),
    searchL dc vc depth path i (a ++ b) = searchL dc vc depth path i a ++ searchL dc vc depth path (i + a.length) b := by
  intro a
  induction a with
  | nil => intro b i; simp [searchL]
  | cons k a ih =>
    intro b i
    simp only [List.cons_append, searchL, ih, List.length_cons, List.append_assoc]
    rw [show i + 1 + a.length = i + (a.length + 1) by omega]

theorem refresh_other {path : List Nat} {v : V} {l : List (Hit D V)} (h : ∀ x ∈ l, x.path ≠ path) : l.map (refresh path v) = l := by
  rw [List.map_congr_left (g := id) (fun x hx => by simp [refresh, h x hx]), List.map_id]

theorem searchN_val (dc vc : Box D → Bool) (depth : Nat) (pre : List Nat) (b : Box D) (p : Par) (u v : V) :
    searchN dc vc depth pre (.val b p v) = (searchN dc vc depth pre (.val b p u)).map (refresh pre v) := by
  simp only [searchN]
  split <;> simp [refresh]

/-- What a write does. -/
theorem write_ok {v' : V} : ∀ (path : List Nat) {t : Node D V} {b : Box D} {v : V}, At t path b v →
    ∃ t', writeAt v' path t = .ok t' ∧ t'.box = t.box ∧ t'.par = t.par ∧ t'.count = t.count ∧ t'.isLeaf = t.isLeaf ∧ t'.valid = t.valid ∧
      (∃ l1 l2, t.entries = l1 ++ (b, v) :: l2 ∧ t'.entries = l1 ++ (b, v') :: l2) ∧
      (∀ S h, WFN S h t → WFN S h t') ∧
      (∀ kb, t = .val kb .right v → t' = .val kb .right v') ∧
      (∀ p c u, At t' p c u ↔ (p = path ∧ c = b ∧ u = v') ∨ (p ≠ path ∧ At t p c u)) ∧
      ∀ dc vc depth pre, searchN dc vc depth pre t' = (searchN dc vc depth pre t).map (refresh (pre ++ path) v')
  | [], .val b' q w, b, v, h => by
    obtain ⟨rfl, rfl⟩ := h
    refine ⟨_, rfl, rfl, rfl, rfl, rfl, rfl, ⟨[], [], rfl, rfl⟩, ?_, ?_, ?_, ?_⟩
    · intro S h hn; cases h <;> exact hn.elim
    · intro kb he; cases he; rfl
    · intro p c u
      cases p with
      | nil => simp [At, eq_comm]
      | cons => simp [At]
    · intro dc vc depth pre
      rw [List.append_nil]; exact searchN_val dc vc depth pre b' q w v'
  | [], .dir .., _, _, h => by simp [At] at h
  | _ :: _, .val .., _, _, h => by simp [At] at h
  | i :: r, .dir l bx q c f ks, b, v, h => by
    obtain ⟨k, hk, ha⟩ := h
    obtain ⟨k', e1, e2, e3, e4, e5, e6, ⟨l1, l2, e7, e8⟩, e9, e10, e11, e12⟩ := write_ok (v' := v') r ha
    obtain ⟨a, d, hks, hi, hset⟩ := split_at hk
    refine ⟨.dir l bx q c f (a ++ k' :: d), ?_, rfl, rfl, rfl, rfl, rfl, ⟨entriesL a ++ l1, l2 ++ entriesL d, ?_, ?_⟩, ?_, ?_, ?_, ?_⟩
    · simp only [writeAt, hk, e1, ← hset]; rfl
    · simp [entries, hks, entriesL_append, entriesL, e7]
    · simp [entries, entriesL_append, entriesL, e8]
    · intro S h hn
      have hbox : (a ++ k' :: d).map Node.box = ks.map Node.box := by rw [hks]; simp [e2]
      have hlen : (a ++ k' :: d).length = ks.length := by rw [hks]; simp
      have hmem : ∀ x ∈ a ++ k' :: d, x = k' ∨ x ∈ ks := by
        intro x hx
        rw [hks]
        simp only [List.mem_append, List.mem_cons] at hx ⊢
        rcases hx with hx | hx | hx
        · exact Or.inr (Or.inl hx)
        · exact Or.inl hx
        · exact Or.inr (Or.inr (Or.inr hx))
      have hkm : k ∈ ks := by rw [hks]; simp
      cases h with
      | zero =>
        obtain ⟨g1, g2, g3, g4⟩ := hn
        refine ⟨g1, by rw [g2, hlen], by rw [hbox]; exact g3, ?_⟩
        intro x hx
        rcases hmem x hx with rfl | hx
        · obtain ⟨kb, kv, hkv, hval⟩ := g4 k hkm
          subst hkv
          cases r with
          | cons => simp [At] at ha
          | nil =>
            obtain ⟨rfl, rfl⟩ := ha
            exact ⟨kb, v', e10 kb rfl, hval⟩
        · exact g4 x hx
      | succ h =>
        obtain ⟨g1, g2, g3, g4⟩ := hn
        refine ⟨g1, by rw [g2, hlen], by rw [hbox]; exact g3, ?_⟩
        intro x hx
        rcases hmem x hx with rfl | hx
        · obtain ⟨k1, k2, k3, k4⟩ := g4 k hkm
          exact ⟨by rw [e3]; exact k1, by rw [e4]; exact k2, by rw [e4]; exact k3, e9 S h k4⟩
        · exact g4 x hx
    · intro kb he; cases he
    · intro p cb u
      cases p with
      | nil => simp [At]
      | cons j s =>
        simp only [At]
        by_cases hj : j = i
        · subst hj
          have h1 : (a ++ k' :: d)[j]? = some k' := by rw [← hi]; simp
          constructor
          · rintro ⟨x, hx, hat⟩
            rw [h1] at hx; cases hx
            rcases (e11 s cb u).1 hat with ⟨rfl, g⟩ | ⟨g1, g2⟩
            · exact Or.inl ⟨rfl, g⟩
            · exact Or.inr ⟨by simpa using g1, k, hk, g2⟩
          · rintro (⟨g1, g2⟩ | ⟨g1, x, hx, hat⟩)
            · cases g1
              exact ⟨k', h1, (e11 _ cb u).2 (Or.inl ⟨rfl, g2⟩)⟩
            · rw [hk] at hx; cases hx
              exact ⟨k', h1, (e11 s cb u).2 (Or.inr ⟨by simpa using g1, hat⟩)⟩
        · have h1 : (a ++ k' :: d)[j]? = ks[j]? := by
            rw [← hset, List.getElem?_set_ne (by omega)]
          rw [h1]
          simp [hj]
    · intro dc vc depth pre
      simp only [searchN]
      split
      · rw [hks, searchL_append, searchL_append, List.map_append]
        simp only [searchL, List.map_append]
        rw [e12, Nat.zero_add, hi]
        congr 1
        · refine (refresh_other ?_).symm
          intro x hx
          obtain ⟨j, y, s, h1, h2, -⟩ := searchL_at dc vc a _ _ _ x hx
          have hj : j < a.length := (List.getElem?_eq_some_iff.1 h1).1
          rw [h2]
          simp
          intro hh; omega
        · congr 1
          · simp
          · refine (refresh_other ?_).symm
            intro x hx
            obtain ⟨j, y, s, h1, h2, -⟩ := searchL_at dc vc d _ _ _ x hx
            rw [h2]
            simp
            intro hh; omega
      · rfl

theorem write_wfr {S : Shape} {h : Nat} {t t' : Node D V} (hw : WFR S h t) {path : List Nat} {b : Box D} {v v' : V} (hat : At t path b v)
    (he : writeAt v' path t = .ok t') : WFR S h t' := by
  obtain ⟨t1, e1, e2, e3, e4, -, -, -, e5, -⟩ := write_ok (v' := v') path hat
  rw [e1] at he; cases he
  exact ⟨e5 S h hw.wfn, by rw [e3]; exact hw.par, by rw [e4]; exact hw.hi, by rw [e4]; exact hw.rlo⟩

theorem write_perm {t t' : Node D V} {path : List Nat} {b : Box D} {v v' : V} (hat : At t path b v)
    (he : writeAt v' path t = .ok t') : ∃ l, t.entries.Perm ((b, v) :: l) ∧ t'.entries.Perm ((b, v') :: l) := by
  obtain ⟨t1, e1, -, -, -, -, -, ⟨l1, l2, h1, h2⟩, -⟩ := write_ok (v' := v') path hat
  rw [e1] at he; cases he
  exact ⟨l1 ++ l2, by rw [h1]; exact List.perm_middle, by rw [h2]; exact List.perm_middle⟩

end Mdds.RTree
