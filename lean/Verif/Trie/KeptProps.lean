import Verif.Trie.KeptCanon

/-! # trie_map: iterators kept while the map changes (C72) -/
namespace Mdds.Trie.Kept
open Mdds.Trie

variable {V : Type}

/-- What an iterator looks like for a cursor. -/
def RelC (l : List (Key × V)) (it : It) : Cur → Prop
  | .at k true => it = canonIt (ofUnit (firstBelow l k)) k ∧ (lookup l k).isSome
  | .at k false => it.key = k ∧ it.value = .live k ∧ it.kind = .normal ∧ (∃ p st, it.stack = ⟨.live k, p⟩ :: st) ∧
      (lookup l k).isSome
  | .end_ => it.stack = [⟨.live [], .end_⟩] ∧ it.buf = [] ∧ it.kind = .end_
  | .gone => True

def Rel (l : List (Key × V)) : Option It → Option Cur → Prop
  | none, none => True
  | some it, some c => RelC l it c
  | _, _ => False

structure Inv (w : World V) (s : Spec V) : Prop where
  reach : Reachable w.root
  ents : entN [] w.root = s.ents
  noEmpty : w.root.val = none
  curs : ∀ i, Rel s.ents (w.its i) (s.curs i)

theorem findNode_prefix (a b : Key) (t : Node V) (h : (findNode (a ++ b) t).isSome) : (findNode a t).isSome := by
  rw [findNode_append] at h
  cases hf : findNode a t with
  | none => rw [hf] at h; cases h
  | some m => rfl

theorem mark_live (t : Node V) (p : Key) (h : (findNode p t).isSome) : (Ptr.live p).mark t = .live p := by
  unfold Ptr.mark; simp only; rw [if_pos h]

theorem mark_canonRev (t : Node V) (r : List Nat) (h : (findNode r.reverse t).isSome) :
    (canonRev r).map (·.mark t) = canonRev r := by
  induction r with
  | nil => rfl
  | cons c r ih =>
    rw [List.reverse_cons] at h
    have h1 := findNode_prefix _ _ t h
    have h2 := mark_live t r.reverse h1
    have h3 := mark_live t (r.reverse ++ [c]) h
    simp only [canonRev, List.map_cons, ih h1]
    congr 1
    unfold Item.mark
    simp only [Ptr.child, h2, h3]
    simp

theorem mark_canon (t : Node V) (hw : t.kids.WF) (k : Key) (h : (lookup (entN [] t) k).isSome) :
    (canonIt (ofUnit (firstBelow (entN [] t) k)) k).mark t = canonIt (ofUnit (firstBelow (entN [] t) k)) k := by
  have hf : (findNode k t).isSome := by
    rw [lookup_entN t hw, denote_findNode] at h
    cases hh : findNode k t with
    | none => rw [hh] at h; cases h
    | some m => rfl
  have h1 := mark_live t k hf
  unfold canonIt It.mark
  simp only [List.map_cons, mark_canonRev t k.reverse (by rw [List.reverse_reverse]; exact hf), h1]
  congr 2
  unfold Item.mark
  simp only [h1]
  congr 1
  cases hu : firstBelow (entN [] t) k with
  | none => rfl
  | some c =>
    have hc : (findNode (k ++ [c]) t).isSome := (mem_below t hw k c).1 (by unfold firstBelow at hu; exact List.min?_mem hu)
    have h2 := mark_live t (k ++ [c]) hc
    simp only [ofUnit, Ptr.child, h2]
    simp

/-- Iterators after a change of the map. -/
theorem rel_change (l : List (Key × V)) (t : Node V) (hw : t.kids.WF) (it : It) (c : Cur) (h : RelC l it c) :
    RelC (entN [] t) (it.mark t) (c.age l (entN [] t)) := by
  cases c with
  | gone => trivial
  | end_ =>
    obtain ⟨h1, h2, h3⟩ := h
    refine ⟨?_, h2, h3⟩
    unfold It.mark
    simp only [h1]
    rfl
  | «at» k fresh =>
    unfold Cur.age
    simp only
    cases hl : lookup (entN [] t) k with
    | none => simp [RelC]
    | some v =>
      have hlk : (lookup (entN [] t) k).isSome := by rw [hl]; rfl
      have hf : (findNode k t).isSome := by
        rw [lookup_entN t hw, denote_findNode] at hl
        cases hh : findNode k t with
        | none => rw [hh] at hl; cases hl
        | some m => rfl
      have hm := mark_live t k hf
      simp only [Option.isNone_some, Bool.false_eq_true, if_false]
      cases fresh with
      | true =>
        obtain ⟨rfl, -⟩ := h
        by_cases he : firstBelow l k = firstBelow (entN [] t) k
        · simp only [he, decide_true, Bool.and_true]
          exact ⟨mark_canon t hw k hlk, hlk⟩
        · simp only [he, decide_false, Bool.and_false]
          refine ⟨rfl, hm, rfl, ?_, hlk⟩
          simp only [It.mark, canonIt, List.map_cons, Item.mark, hm]
          exact ⟨_, _, rfl⟩
      | false =>
        obtain ⟨h1, h2, h3, ⟨p, st, h4⟩, -⟩ := h
        simp only [Bool.false_and]
        refine ⟨h1, ?_, h3, ?_, hlk⟩
        · simp only [It.mark, h2, hm]
        · simp only [It.mark, h4, List.map_cons, Item.mark, hm]
          exact ⟨_, _, rfl⟩

theorem inv_change (w : World V) (s : Spec V) (hi : Inv w s) (t : Node V) (l : List (Key × V)) (hr : Reachable t)
    (hl : entN [] t = l) (he : t.val = none) : Inv (w.change t) (s.change l) := by
  refine ⟨hr, hl, he, ?_⟩
  intro i
  have := hi.curs i
  simp only [World.change, Spec.change]
  cases h1 : w.its i with
  | none =>
    rw [h1] at this
    cases h2 : s.curs i with
    | none => trivial
    | some c => rw [h2] at this; exact this.elim
  | some it =>
    rw [h1] at this
    cases h2 : s.curs i with
    | none => rw [h2] at this; exact this.elim
    | some c =>
      rw [h2] at this
      subst hl
      exact rel_change s.ents t hr.wf it c this

theorem inv_put (w : World V) (s : Spec V) (hi : Inv w s) (i : Nat) (it : It) (c : Cur) (h : RelC s.ents it c) :
    Inv (w.put i it) (s.put i c) := by
  refine ⟨hi.reach, hi.ents, hi.noEmpty, ?_⟩
  intro j
  simp only [World.put, Spec.put]
  by_cases hj : j = i
  · simp only [hj, if_true]; exact h
  · simp only [hj, if_false]; exact hi.curs j

theorem Inv.get {w : World V} {s : Spec V} (hi : Inv w s) {i : Nat} {c : Cur} (h : s.curs i = some c) :
    ∃ it, w.its i = some it ∧ RelC s.ents it c := by
  have := hi.curs i
  rw [h] at this
  cases h1 : w.its i with
  | none => rw [h1] at this; exact this.elim
  | some it => rw [h1] at this; exact ⟨it, rfl, this⟩

theorem reach_step {t : Node V} (h : Reachable t) (o : Op V) : Reachable (Trie.step t o) := by
  obtain ⟨l, rfl⟩ := h
  exact ⟨l ++ [o], by simp [Trie.run, List.foldl_append]⟩

theorem lookup_mem {l : List (Key × V)} {k : Key} (h : k ∈ l.map (·.1)) : (lookup l k).isSome := by
  unfold lookup
  rw [Option.isSome_map, List.find?_isSome]
  obtain ⟨e, h1, h2⟩ := List.mem_map.1 h
  exact ⟨e, h1, by simpa using h2⟩

theorem Inv.lookup {w : World V} {s : Spec V} (hi : Inv w s) (k : Key) : Kept.lookup s.ents k = denote w.root k := by
  rw [← hi.ents, lookup_entN w.root hi.reach.wf]

theorem Inv.safe {w : World V} {s : Spec V} (hi : Inv w s) {k : Key} (h : SafeKey s.ents k) : Safe (denote w.root) k := by
  unfold SafeKey at h
  rw [hi.lookup] at h
  rcases h with h | h
  · left; intro hc; rw [hc] at h; cases h
  · right; intro q c d r e; rw [← hi.lookup]; exact h q c d r e

theorem nextKey_stored {l : List (Key × V)} {k k' : Key} (h : nextKey l k = some k') : (lookup l k').isSome := by
  apply lookup_mem
  unfold nextKey at h
  rw [Option.map_eq_some_iff] at h
  obtain ⟨e, h1, h2⟩ := h
  exact List.mem_map.2 ⟨e, (List.mem_filter.1 (List.mem_of_head? h1)).1, h2⟩

theorem prevKey_stored {l : List (Key × V)} {k k' : Key} (h : prevKey l k = some k') : (lookup l k').isSome := by
  apply lookup_mem
  unfold prevKey at h
  rw [Option.map_eq_some_iff] at h
  obtain ⟨e, h1, h2⟩ := h
  exact List.mem_map.2 ⟨e, (List.mem_filter.1 (List.mem_of_getLast? h1)).1, h2⟩

/-! ### assigning through an iterator -/

theorem change_eq_upd {c : Nat} {f g : Node V → Node V} : (ks : Kids V) → {ch : Node V} → ks.WF → ks.find? c = some ch → f ch = g ch →
    ks.change c f = ks.upd c g
  | .nil, _, _, h, _ => by simp [Kids.find?] at h
  | .cons d v k r, ch, hw, h, hfg => by
    simp only [Kids.find?] at h
    by_cases hd : d = c
    · subst hd
      rw [if_pos rfl] at h
      cases h
      simp only [Kids.change, Kids.upd, if_true, lt_irrefl, if_false, hfg]
    · rw [if_neg hd] at h
      have hlt : d < c := by
        rcases lt_trichotomy d c with h1 | h1 | h1
        · exact h1
        · exact absurd h1 hd
        · rw [Kids.find?_of_allGt hw.2.2.1 c (le_of_lt h1)] at h; cases h
      simp only [Kids.change, Kids.upd, if_neg hd, if_pos hlt, change_eq_upd r hw.2.1 h hfg]

theorem find?_wf {c : Nat} : (ks : Kids V) → {ch : Node V} → ks.WF → ks.find? c = some ch → ch.kids.WF
  | .nil, _, _, h => by simp [Kids.find?] at h
  | .cons d v k r, ch, hw, h => by
    simp only [Kids.find?] at h
    split at h
    · cases h; exact hw.1
    · exact find?_wf r hw.2.1 h

/-- Assigning the value of a stored key and inserting the key again give the same tree. -/
theorem setValue_eq (v : V) (k : Key) (t : Node V) (hw : t.kids.WF) {n : Node V} (hf : findNode k t = some n) (hv : n.val.isSome) :
    setValue v k t = insert k v t := by
  induction k generalizing t with
  | nil =>
    cases hf
    obtain ⟨u, hu⟩ := Option.isSome_iff_exists.1 hv
    simp [setValue, insert, hu]
  | cons c k ih =>
    simp only [findNode] at hf
    cases hc : t.kids.find? c with
    | none => rw [hc] at hf; cases hf
    | some ch =>
      rw [hc] at hf
      simp only [setValue, insert]
      rw [change_eq_upd t.kids hw hc (ih ch (find?_wf t.kids hw hc) hf)]

theorem sWrite_eq {l : List (Key × V)} (ha : Asc l) {k : Key} (v : V) (hk : k ∈ l.map (·.1)) : sInsert k v l = sWrite k v l := by
  induction l with
  | nil => simp at hk
  | cons e l ih =>
    have hlt := (List.pairwise_cons.1 ha).1
    have hl := (List.pairwise_cons.1 ha).2
    by_cases he : e.1 = k
    · have h1 : l.filter (fun e => decide (e.1 < k)) = [] := by
        rw [List.filter_eq_nil_iff]
        intro x hx
        have := hlt x hx
        rw [he] at this
        simpa using le_of_lt this
      have h2 : l.filter (fun e => decide (k < e.1)) = l := by
        rw [List.filter_eq_self]
        intro x hx
        have := hlt x hx
        rw [he] at this
        simpa using this
      have h3 : l.map (fun e => if e.1 = k then (k, v) else e) = l := by
        conv_rhs => rw [← List.map_id l]
        apply List.map_congr_left
        intro x hx
        have := hlt x hx
        rw [he] at this
        simp [ne_of_gt this]
      simp only [sInsert, sWrite, List.filter_cons, List.map_cons, he, h1, h2, h3]
      simp
    · have hk' : k ∈ l.map (·.1) := by
        rw [List.map_cons, List.mem_cons] at hk
        rcases hk with h | h
        · exact absurd h.symm he
        · exact h
      obtain ⟨x, hx, hxk⟩ := List.mem_map.1 hk'
      have hek : e.1 < k := hxk ▸ hlt x hx
      have := ih hl hk'
      simp only [sInsert, sWrite] at this ⊢
      simp only [List.filter_cons, List.map_cons, hek, he, decide_true, if_true, if_false, List.cons_append, this]
      simp [not_lt.2 (le_of_lt hek), this]

theorem sWrite_keys (k : Key) (v : V) (l : List (Key × V)) : (sWrite k v l).map (·.1) = l.map (·.1) := by
  simp only [sWrite, List.map_map]
  apply List.map_congr_left
  intro e _
  simp only [Function.comp]
  split
  · rename_i h; exact h.symm
  · rfl

/-- The specification of an assignment changes the value of that one key, and nothing else. -/
theorem sWrite_lookup (k : Key) (v : V) (l : List (Key × V)) (k' : Key) :
    lookup (sWrite k v l) k' = if k' = k then (lookup l k).map fun _ => v else lookup l k' := by
  induction l with
  | nil => simp [sWrite, lookup]
  | cons e l ih =>
    simp only [sWrite, lookup, List.map_cons, List.find?_cons] at ih ⊢
    by_cases h1 : e.1 = k
    · by_cases h2 : k' = k
      · subst h2; simp [h1]
      · have h3 : k ≠ k' := fun h => h2 h.symm
        simp only [h1, if_true, h3, h2, decide_false, if_false] at ih ⊢
        simpa [h1, h3, h2] using ih
    · by_cases h2 : k' = k
      · subst h2
        simpa [h1] using ih
      · by_cases h4 : e.1 = k'
        · simp [h1, h2, h4]
        · simpa [h1, h2, h4] using ih

theorem lookup_keys {l l' : List (Key × V)} (h : l.map (·.1) = l'.map (·.1)) (k : Key) (hk : (lookup l k).isSome) : (lookup l' k).isSome := by
  apply lookup_mem
  rw [← h]
  unfold lookup at hk
  rw [Option.isSome_map, List.find?_isSome] at hk
  obtain ⟨e, h1, h2⟩ := hk
  exact List.mem_map.2 ⟨e, h1, by simpa using h2⟩

theorem firstBelow_keys {l l' : List (Key × V)} (h : l.map (·.1) = l'.map (·.1)) (k : Key) : firstBelow l k = firstBelow l' k := by
  have : ∀ l : List (Key × V), firstBelow l k = ((l.map (·.1)).filterMap (unitAfter k)).min? := by
    intro l
    simp only [firstBelow, List.filterMap_map]
    rfl
  rw [this, this, h]

theorem rel_keys {l l' : List (Key × V)} (h : l.map (·.1) = l'.map (·.1)) {it : It} {c : Cur} (hr : RelC l it c) : RelC l' it c := by
  cases c with
  | gone => trivial
  | end_ => exact hr
  | «at» k f =>
    cases f with
    | true => exact ⟨by rw [← firstBelow_keys h]; exact hr.1, lookup_keys h k hr.2⟩
    | false => exact ⟨hr.1, hr.2.1, hr.2.2.1, hr.2.2.2.1, lookup_keys h k hr.2.2.2.2⟩

/-- One legal call. -/
theorem step_ok (w : World V) (s : Spec V) (hi : Inv w s) (c : Cmd V) (hl : Legal s c) :
    ∃ w' a, step w c = .ok (w', a) ∧ sAns s c a ∧ Inv w' (sStep s c) := by
  have hw := hi.reach.wf
  cases c with
  | insert k v =>
    refine ⟨_, _, rfl, rfl, inv_change w s hi _ _ (reach_step hi.reach (.insert k v)) ?_ ?_⟩
    · rw [← hi.ents]; exact entN_insert w.root hw k v
    · cases k with
      | nil => exact absurd rfl hl
      | cons c k => exact hi.noEmpty
  | erase k =>
    obtain ⟨h1, h2⟩ := C18_erase_partial w.root hi.reach k (hi.safe hl)
    refine ⟨_, _, rfl, ?_, inv_change w s hi _ _ (reach_step hi.reach (.erase k)) ?_ ?_⟩
    · show Ans.bool _ = Ans.bool _
      rw [h1, hi.lookup]
    · rw [← hi.ents]; exact entN_of_erase w.root _ hw (erase_wf k w.root hw) k h2
    · have := h2 []
      have he : denote w.root [] = none := hi.noEmpty
      rw [he] at this
      simp only [ite_self] at this
      exact this
  | clear =>
    exact ⟨_, _, rfl, rfl, inv_change w s hi _ _ (reach_step hi.reach .clear) rfl rfl⟩
  | begin_ i =>
    have hb := begin_canon w.root hw hi.noEmpty
    rw [hi.ents] at hb
    refine ⟨_, _, by simp only [step, hb, World.putO] <;> rfl, rfl, inv_put w s hi i _ _ ?_⟩
    cases hh : s.ents.head?.map (·.1) with
    | none => exact ⟨rfl, rfl, rfl⟩
    | some k =>
      refine ⟨rfl, lookup_mem ?_⟩
      rw [Option.map_eq_some_iff] at hh
      obtain ⟨e, h1, h2⟩ := hh
      exact List.mem_map.2 ⟨e, List.mem_of_head? h1, h2⟩
  | end_ i => exact ⟨_, _, rfl, rfl, inv_put w s hi i _ _ ⟨rfl, rfl, rfl⟩⟩
  | find i k =>
    have hf := find_canon w.root hi.reach k (by rw [hi.ents]; exact hl)
    rw [hi.ents, ← hi.lookup] at hf
    refine ⟨_, _, by simp only [step, hf, World.putO] <;> rfl, rfl, inv_put w s hi i _ _ ?_⟩
    by_cases hk : (lookup s.ents k).isSome = true
    · rw [if_pos hk, if_pos hk]; exact ⟨rfl, hk⟩
    · rw [if_neg hk, if_neg hk]; exact ⟨rfl, rfl, rfl⟩
  | inc i =>
    obtain ⟨k, hc⟩ := hl
    obtain ⟨it, h1, rfl, h3⟩ := hi.get hc
    obtain ⟨v, hv⟩ := Option.isSome_iff_exists.1 h3
    rw [hi.lookup] at hv
    have hinc := inc_canon w.root hw k v hv
    rw [hi.ents] at hinc
    refine ⟨_, _, by simp only [step, h1, hinc, World.putO] <;> rfl, rfl, ?_⟩
    simp only [sStep, hc]
    refine inv_put w s hi i _ _ ?_
    cases hn : nextKey s.ents k with
    | none => exact ⟨rfl, rfl, rfl⟩
    | some k' => exact ⟨rfl, nextKey_stored hn⟩
  | dec i =>
    rcases hl with ⟨hc, hne⟩ | ⟨k, k', hc, hp, hb⟩
    · obtain ⟨it, h1, h2, h3, h4⟩ := hi.get hc
      cases hlast : s.ents.getLast? with
      | none => rw [List.getLast?_eq_none_iff] at hlast; exact absurd hlast hne
      | some e =>
        have hdec := dec_end_canon w.root hw hi.noEmpty it h2 h3 h4 e.1 (by rw [hi.ents, hlast]; rfl)
        rw [hi.ents] at hdec
        refine ⟨_, _, by simp only [step, h1, hdec, World.putO] <;> rfl, rfl, ?_⟩
        simp only [sStep, hc, hlast, Option.map_some]
        exact inv_put w s hi i _ _ ⟨rfl, lookup_mem (List.mem_map.2 ⟨e, List.mem_of_getLast? hlast, rfl⟩)⟩
    · obtain ⟨it, h1, rfl, h3⟩ := hi.get hc
      obtain ⟨v, hv⟩ := Option.isSome_iff_exists.1 h3
      rw [hi.lookup] at hv
      have hdec := dec_canon w.root hi.reach k k' v hv hi.noEmpty (by rw [hi.ents]; exact hp) (by rw [hi.ents]; exact hb)
      rw [hi.ents] at hdec
      refine ⟨_, _, by simp only [step, h1, hdec, World.putO] <;> rfl, rfl, ?_⟩
      simp only [sStep, hc, hp]
      exact inv_put w s hi i _ _ ⟨rfl, prevKey_stored hp⟩
  | copy i j =>
    cases hc : s.curs j with
    | none => exact absurd hc hl
    | some c =>
      obtain ⟨it, h1, h2⟩ := hi.get hc
      refine ⟨_, _, by simp only [step, h1] <;> rfl, rfl, ?_⟩
      simp only [sStep, hc]
      exact inv_put w s hi i _ _ h2
  | deref i =>
    obtain ⟨k, f, hc⟩ := hl
    obtain ⟨it, h1, h2⟩ := hi.get hc
    have hboth : it.key = k ∧ it.value = .live k ∧ (lookup s.ents k).isSome := by
      cases f with
      | true => obtain ⟨rfl, h3⟩ := h2; exact ⟨rfl, rfl, h3⟩
      | false => exact ⟨h2.1, h2.2.1, h2.2.2.2.2⟩
    obtain ⟨e1, e2, e3⟩ := hboth
    obtain ⟨v, hv⟩ := Option.isSome_iff_exists.1 e3
    have hd : deref w.root it = .ok (k, v) := by
      have := hv
      rw [hi.lookup, denote_findNode] at this
      cases hf : findNode k w.root with
      | none => rw [hf] at this; cases this
      | some m =>
        rw [hf] at this
        simp only [Option.bind_some] at this
        simp only [deref, e2, node, hf, this, e1]
    exact ⟨w, .entry k v, by simp only [step, h1, hd], ⟨k, f, v, hc, hv, rfl⟩, hi⟩
  | write i v =>
    obtain ⟨k, f, hc⟩ := hl
    obtain ⟨it, h1, h2⟩ := hi.get hc
    have hboth : it.value = .live k ∧ (lookup s.ents k).isSome := by
      cases f with
      | true => obtain ⟨rfl, h3⟩ := h2; exact ⟨rfl, h3⟩
      | false => exact ⟨h2.2.1, h2.2.2.2.2⟩
    obtain ⟨e2, e3⟩ := hboth
    obtain ⟨u, hu⟩ := Option.isSome_iff_exists.1 e3
    have hden := hu
    rw [hi.lookup] at hden
    have hden' := hden
    rw [denote_findNode] at hden
    cases hf : findNode k w.root with
    | none => rw [hf] at hden; cases hden
    | some m =>
      rw [hf, Option.bind_some] at hden
      have hm : m.val.isSome := by rw [hden]; rfl
      have hset := setValue_eq v k w.root hw hf hm
      have hmem : k ∈ s.ents.map (·.1) := by
        unfold lookup at e3
        rw [Option.isSome_map, List.find?_isSome] at e3
        obtain ⟨e, h3, h4⟩ := e3
        exact List.mem_map.2 ⟨e, h3, by simpa using h4⟩
      have hent : entN [] (setValue v k w.root) = sWrite k v s.ents := by
        rw [hset, entN_insert w.root hw, hi.ents]
        exact sWrite_eq (by rw [← hi.ents]; exact asc_entN [] _ hw) v hmem
      have hkey := sWrite_keys k v s.ents
      refine ⟨_, _, by simp only [step, h1, write, e2, hf, hm, if_true] <;> rfl, rfl, ?_⟩
      simp only [sStep, hc]
      refine ⟨by rw [hset]; exact reach_step hi.reach (.insert k v), hent, ?_, ?_⟩
      · cases k with
        | nil =>
          have : denote w.root [] = none := hi.noEmpty
          rw [this] at hden'; cases hden'
        | cons c k => exact hi.noEmpty
      · intro j
        have := hi.curs j
        show Rel (sWrite k v s.ents) (w.its j) (s.curs j)
        cases hj : w.its j with
        | none =>
          rw [hj] at this
          cases hcj : s.curs j with
          | none => trivial
          | some c' => rw [hcj] at this; exact this
        | some it' =>
          rw [hj] at this
          cases hcj : s.curs j with
          | none => rw [hcj] at this; exact this
          | some c' => rw [hcj] at this; exact rel_keys hkey.symm this
  | eq i j =>
    obtain ⟨a, b, ha, hb, hga, hgb, hfr⟩ := hl
    obtain ⟨x, h1, h2⟩ := hi.get ha
    obtain ⟨y, h3, h4⟩ := hi.get hb
    have top : ∀ (z : It) (k : Key) (f : Bool), RelC s.ents z (.at k f) → z.kind = .normal ∧ ∃ p st, z.stack = ⟨.live k, p⟩ :: st := by
      intro z k f hz
      cases f with
      | true => obtain ⟨rfl, -⟩ := hz; exact ⟨rfl, _, _, rfl⟩
      | false => exact ⟨hz.2.2.1, hz.2.2.2.1⟩
    have key : ∃ r, eq x y = .ok r ∧ (r = true ↔ (a = .end_ ∧ b = .end_) ∨ ∃ k f g, a = .at k f ∧ b = .at k g) := by
      cases a with
      | gone => exact absurd rfl hga
      | end_ =>
        obtain ⟨x1, -, x3⟩ := h2
        cases b with
        | gone => exact absurd rfl hgb
        | end_ =>
          obtain ⟨y1, -, y3⟩ := h4
          exact ⟨true, by simp [eq, x1, x3, y1, y3], by simp⟩
        | «at» k g =>
          have := (top y k g h4).1
          exact ⟨false, by simp [eq, x3, this], by simp⟩
      | «at» k f =>
        obtain ⟨x3, p, st, x1⟩ := top x k f h2
        cases b with
        | gone => exact absurd rfl hgb
        | end_ =>
          obtain ⟨y1, -, y3⟩ := h4
          exact ⟨false, by simp [eq, x3, y3], by simp⟩
        | «at» k' g =>
          obtain ⟨y3, p', st', y1⟩ := top y k' g h4
          by_cases hk : k = k'
          · subst hk
            obtain ⟨rfl, rfl⟩ := hfr k f g rfl rfl
            obtain ⟨rfl, -⟩ := h2
            obtain ⟨rfl, -⟩ := h4
            have : ofUnit (firstBelow s.ents k) ≠ .dead := by cases firstBelow s.ents k <;> simp [ofUnit]
            exact ⟨true, by simp [eq, canonIt, this], by simp⟩
          · exact ⟨false, by simp [eq, x1, x3, y1, y3, hk], by simp only [reduceCtorEq, Cur.at.injEq, false_and, false_or, Bool.false_eq_true, false_iff]; rintro ⟨k1, f1, g1, ⟨rfl, -⟩, ⟨h, -⟩⟩; exact hk h.symm⟩
    obtain ⟨r, e1, e2⟩ := key
    refine ⟨w, .bool r, by simp only [step, h1, h3, e1], ⟨r, rfl, ?_⟩, hi⟩
    rw [e2, ha, hb]
    simp

theorem run_ok (w : World V) (s : Spec V) (hi : Inv w s) (p : List (Cmd V)) (hl : LegalRun s p) :
    ∃ w' as, run w p = .ok (w', as) ∧ Answers s p as := by
  induction p generalizing w s with
  | nil => exact ⟨w, [], rfl, rfl⟩
  | cons c cs ih =>
    obtain ⟨w1, a, e1, e2, e3⟩ := step_ok w s hi c hl.1
    obtain ⟨w2, as, e4, e5⟩ := ih w1 _ e3 hl.2
    exact ⟨w2, a :: as, by simp only [run, e1, e4], a, as, rfl, e2, e5⟩

/-- C72 (partial): in every program whose calls are all legal, iterators kept across insertions, erasures, `clear` and assignments
to values through other iterators show the current value of their key, move to the neighbouring key in the current map and compare like positions; nothing is
undefined.  The full property would allow moving an iterator, and comparing it, after a call that changed which unit comes
first below its key; `C72_skip_fails` and the other witnesses below show that this does not hold. -/
theorem C72_kept_iterators_partial (p : List (Cmd V)) (hl : LegalRun Spec.empty p) :
    ∃ as, answers p = .ok as ∧ Answers Spec.empty p as := by
  have hi : Inv (World.empty : World V) Spec.empty := ⟨⟨[], rfl⟩, rfl, rfl, fun _ => trivial⟩
  obtain ⟨w, as, e1, e2⟩ := run_ok _ _ hi p hl
  exact ⟨as, by simp only [answers, e1], e2⟩

theorem min?_congr {a b : List Nat} (h : ∀ c, c ∈ a ↔ c ∈ b) : a.min? = b.min? := by
  cases ha : a.min? with
  | none =>
    rw [List.min?_eq_none_iff] at ha
    subst ha
    cases b with
    | nil => rfl
    | cons y b => have := (h y).2 (by simp); simp at this
  | some x =>
    rw [List.min?_eq_some_iff] at ha
    symm
    rw [List.min?_eq_some_iff]
    exact ⟨(h x).1 ha.1, fun y hy => ha.2 y ((h y).2 hy)⟩

theorem unitAfter_none {k k' : Key} (h : k <+: k' → k' = k) : unitAfter k k' = none := by
  cases hh : unitAfter k k' with
  | none => rfl
  | some c =>
    obtain ⟨q, rfl⟩ := (unitAfter_some k k' c).1 hh
    have := h ⟨_, rfl⟩
    simp at this

/-- C72: an insertion leaves the unit that comes first below `k` as it is if the inserted key does not continue `k`.  So a
cursor at `k` stays fresh. -/
theorem C72_insert_keeps_fresh (l : List (Key × V)) (k k' : Key) (v : V) (h : k <+: k' → k' = k) :
    firstBelow (sInsert k' v l) k = firstBelow l k := by
  have hu := unitAfter_none h
  unfold firstBelow
  apply min?_congr
  intro c
  simp only [List.mem_filterMap, sInsert, List.mem_append, List.mem_cons, List.mem_filter, decide_eq_true_eq]
  constructor
  · rintro ⟨e, (⟨h1, -⟩ | rfl | ⟨h1, -⟩), h2⟩
    · exact ⟨e, h1, h2⟩
    · simp only [hu] at h2; cases h2
    · exact ⟨e, h1, h2⟩
  · rintro ⟨e, h1, h2⟩
    refine ⟨e, ?_, h2⟩
    rcases lt_trichotomy e.1 k' with h3 | h3 | h3
    · exact Or.inl ⟨h1, h3⟩
    · rw [h3, hu] at h2; cases h2
    · exact Or.inr (Or.inr ⟨h1, h3⟩)

/-- C72: the same for an erasure. -/
theorem C72_erase_keeps_fresh (l : List (Key × V)) (k k' : Key) (h : k <+: k' → k' = k) :
    firstBelow (sErase k' l) k = firstBelow l k := by
  have hu := unitAfter_none h
  unfold firstBelow
  apply min?_congr
  intro c
  simp only [List.mem_filterMap, sErase, List.mem_filter, decide_eq_true_eq]
  constructor
  · rintro ⟨e, ⟨h1, -⟩, h2⟩; exact ⟨e, h1, h2⟩
  · rintro ⟨e, h1, h2⟩
    refine ⟨e, ⟨h1, ?_⟩, h2⟩
    intro h3
    rw [h3, hu] at h2; cases h2

/-- The hypotheses are met by a program that keeps iterators across changes of the map and moves them afterwards. -/
def exProg : List (Cmd Nat) :=
  [.insert [1] 1, .insert [1, 2] 2, .insert [3] 3, .find 0 [1, 2], .find 1 [3], .end_ 2, .insert [2] 4, .erase [1], .insert [1, 2] 7,
    .deref 0, .inc 0, .deref 0, .dec 1, .eq 0 1, .insert [4] 5, .dec 2, .deref 2, .begin_ 3, .deref 3, .write 0 8, .deref 1, .inc 1, .deref 1]

example : answers exProg = .ok [.unit, .unit, .unit, .unit, .unit, .unit, .unit, .bool true, .unit, .entry [1, 2] 7, .unit,
    .entry [2] 4, .unit, .bool true, .unit, .unit, .entry [4] 5, .unit, .entry [1, 2] 7, .unit, .entry [2] 8, .unit,
    .entry [3] 3] := by decide +kernel

example : LegalRun Spec.empty exProg := by
  have back : ∀ k k' : Key, k'.head? ≠ k.head? → ∀ l : List (Key × Nat), BackOk l k k' := fun _ _ h _ => Or.inr (Or.inr h)
  refine ⟨by simp [Legal], by simp [Legal], by simp [Legal], Or.inl (by decide), Or.inl (by decide), trivial, by simp [Legal],
    Or.inl (by decide), by simp [Legal], ⟨[1, 2], true, by decide +kernel⟩, ⟨[1, 2], by decide +kernel⟩, ⟨[2], true, by decide +kernel⟩,
    Or.inr ⟨[3], [2], by decide +kernel, by decide +kernel, back _ _ (by decide) _⟩,
    ⟨.at [2] true, .at [2] true, by decide +kernel, by decide +kernel, by simp, by simp, by simp⟩, by simp [Legal],
    Or.inl ⟨by decide +kernel, by decide +kernel⟩, ⟨[4], true, by decide +kernel⟩, trivial, ⟨[1, 2], true, by decide +kernel⟩,
    ⟨[2], true, by decide +kernel⟩, ⟨[2], true, by decide +kernel⟩, ⟨[2], by decide +kernel⟩, ⟨[3], true, by decide +kernel⟩, trivial⟩

/-- C72 does not hold in general: keys "a", "ac"; an iterator at "a" is kept while "ab" is inserted.  Its second `++` ends the
loop: "ac" is never visited. -/
theorem C72_skip_fails : answers (V := Nat) [.insert [97] 1, .insert [97, 99] 3, .find 0 [97], .insert [97, 98] 2, .inc 0, .deref 0,
      .inc 0, .end_ 1, .eq 0 1, .find 2 [97, 99], .deref 2] =
    .ok [.unit, .unit, .unit, .unit, .unit, .entry [97, 98] 2, .unit, .unit, .bool true, .unit, .entry [97, 99] 3] := by
  decide +kernel

/-- C72 does not hold in general: an iterator at "a" is kept while "ab" is inserted into {"a"}: the second `++` moves an end
position of `std::map` forward. -/
theorem C72_past_end_fails : answers (V := Nat) [.insert [97] 1, .find 0 [97], .insert [97, 98] 2, .inc 0, .inc 0] = .ub := by
  decide +kernel

/-- C72 does not hold in general: keys "a", "ab", "ac"; an iterator at "a" is kept while "ab" is erased: the second `++` moves the
position of the removed child. -/
theorem C72_erased_child_fails : answers (V := Nat) [.insert [97] 1, .insert [97, 98] 2, .insert [97, 99] 3, .find 0 [97],
    .erase [97, 98], .inc 0, .inc 0] = .ub := by
  decide +kernel

/-- C72 does not hold in general: two iterators at the same key are different if a longer key was inserted between the two
calls of `find`. -/
theorem C72_compare_fails : answers (V := Nat) [.insert [97] 1, .find 0 [97], .insert [97, 98] 2, .find 1 [97], .deref 0, .deref 1,
    .eq 0 1] = .ok [.unit, .unit, .unit, .unit, .entry [97] 1, .entry [97] 1, .bool false] := by
  decide +kernel

/-- An iterator whose key was erased may not be used, also if the key is inserted again. -/
theorem C72_erased_key_fails : answers (V := Nat) [.insert [97] 1, .find 0 [97], .erase [97], .insert [97] 2, .deref 0] = .ub := by
  decide +kernel

end Mdds.Trie.Kept
