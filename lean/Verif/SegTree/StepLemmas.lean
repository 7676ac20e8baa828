import Verif.SegTree.Lemmas

namespace Mdds.SegTree
variable {V : Type}

/-! ### a freshly built tree has no marks -/

def Fresh (t : Tree) : Prop := ∀ q c, chainAt q t = some c → c = []

theorem bottoms_fresh (ks : List Int) : ∀ t ∈ bottoms ks, Fresh t := by
  induction ks using bottoms.induct with
  | case1 => simp [bottoms]
  | case2 k =>
    simp only [bottoms, List.mem_singleton]
    rintro t rfl q c h
    match q with
    | [] => simpa [chainAt] using h.symm
    | [false] => simpa [chainAt] using h.symm
    | [true] => simp [chainAt] at h
    | _ :: _ :: _ => simp [chainAt] at h
  | case3 k1 k2 =>
    simp only [bottoms, List.mem_singleton]
    rintro t rfl q c h
    match q with
    | [] => simpa [chainAt] using h.symm
    | [false] => simpa [chainAt] using h.symm
    | [true] => simpa [chainAt] using h.symm
    | _ :: _ :: _ => simp [chainAt] at h
  | case4 k1 k2 k3 t ih =>
    simp only [bottoms, List.mem_cons]
    rintro t (rfl | h')
    · intro q c h
      match q with
      | [] => simpa [chainAt] using h.symm
      | [false] => simpa [chainAt] using h.symm
      | [true] => simpa [chainAt] using h.symm
      | _ :: _ :: _ => simp [chainAt] at h
    · exact ih t (by simpa using h')

theorem pairUp_fresh (ts : List Tree) (h : ∀ t ∈ ts, Fresh t) : ∀ t ∈ pairUp ts, Fresh t := by
  induction ts using pairUp.induct with
  | case1 => simp [pairUp]
  | case2 a =>
    simp only [pairUp, List.mem_singleton]
    rintro t rfl q c hq
    match q with
    | [] => simpa [chainAt] using hq.symm
    | false :: q => exact h a (by simp) q c (by simpa [chainAt] using hq)
    | true :: _ => simp [chainAt] at hq
  | case3 a b ts ih =>
    simp only [pairUp, List.mem_cons]
    rintro t (rfl | h')
    · intro q c hq
      match q with
      | [] => simpa [chainAt] using hq.symm
      | false :: q => exact h a (by simp) q c (by simpa [chainAt] using hq)
      | true :: q => exact h b (by simp) q c (by simpa [chainAt] using hq)
    · exact ih (fun t ht => h t (by simp [ht])) t h'

theorem buildUpN_fresh (n : Nat) (ts : List Tree) (h : ∀ t ∈ ts, Fresh t) (t : Tree)
    (ht : buildUpN n ts = some t) : Fresh t := by
  induction n generalizing ts with
  | zero =>
    match ts with
    | [] => simp [buildUpN] at ht
    | [a] => simp [buildUpN] at ht; subst ht; exact h _ (by simp)
    | _ :: _ :: _ => simp [buildUpN] at ht
  | succ n ih =>
    match ts with
    | [] => simp [buildUpN] at ht
    | [a] => simp [buildUpN] at ht; subst ht; exact h _ (by simp)
    | a :: b :: rest => exact ih _ (pairUp_fresh _ h) ht

theorem buildNodes_fresh (ks : List Int) (t : Tree) (h : buildNodes ks = some t) : Fresh t :=
  buildUpN_fresh _ _ (bottoms_fresh ks) t h

theorem Fresh.cnt {t : Tree} (h : Fresh t) (p : Int) (j : Nat) : cnt p t j = 0 := by
  unfold SegTree.cnt
  rw [List.count_eq_zero]
  intro hm
  obtain ⟨q, c, h1, h2⟩ := mem_descend hm
  rw [h q c h1] at h2; simp at h2

/-! ### marking all segments -/

theorem markAll_tags (segs : List (Seg V)) (i : Nat) (t : Tree)
    (h : ∀ q c, chainAt q t = some c → c.Nodup ∧ ∀ x ∈ c, x < i) :
    (∀ q c, chainAt q (markAll i segs t).1 = some c → c.Nodup) ∧
    (∀ q, (chainAt q (markAll i segs t).1).isSome = (chainAt q t).isSome) ∧
    (∀ q c x, chainAt q (markAll i segs t).1 = some c → x ∈ c →
      (∃ c0, chainAt q t = some c0 ∧ x ∈ c0) ∨
        ∃ nodes, (markAll i segs t).2.lookup x = some nodes ∧ q ∈ nodes) ∧
    (∀ x nodes, (markAll i segs t).2.lookup x = some nodes → i ≤ x ∧ ∀ q ∈ nodes, (chainAt q t).isSome) := by
  induction segs generalizing i t with
  | nil =>
    simp only [markAll, List.lookup_nil]
    exact ⟨fun q c hc => (h q c hc).1, by simp, fun q c x hc hx => Or.inl ⟨c, hc, hx⟩, by simp⟩
  | cons s ss ih =>
    have hm : ∀ q, (chainAt q (mark i s.start s.stop t).1).isSome = (chainAt q t).isSome := by
      intro q; rw [mark_chain]; simp
    have hstep : ∀ q c, chainAt q (mark i s.start s.stop t).1 = some c → c.Nodup ∧ ∀ x ∈ c, x < i + 1 := by
      intro q c hc
      rw [mark_chain] at hc
      simp only [Option.map_eq_some_iff] at hc
      obtain ⟨c0, hc0, rfl⟩ := hc
      have h0 := h q c0 hc0
      split
      · refine ⟨?_, ?_⟩
        · rw [List.nodup_append]
          refine ⟨h0.1, by simp, ?_⟩
          intro a ha b hb
          simp at hb; subst hb
          have := h0.2 a ha; omega
        · intro x hx
          rcases List.mem_append.1 hx with hx | hx
          · have := h0.2 x hx; omega
          · simp at hx; omega
      · exact ⟨h0.1, fun x hx => by have := h0.2 x hx; omega⟩
    obtain ⟨g1, g2, g3, g4⟩ := ih (i + 1) (mark i s.start s.stop t).1 hstep
    simp only [markAll]
    refine ⟨g1, fun q => by rw [g2, hm], ?_, ?_⟩
    · intro q c x hc hx
      rcases g3 q c x hc hx with ⟨c0, hc0, hx0⟩ | ⟨nodes, hn, hq⟩
      · rw [mark_chain] at hc0
        simp only [Option.map_eq_some_iff] at hc0
        obtain ⟨c1, hc1, rfl⟩ := hc0
        split at hx0
        · rename_i hq
          rcases List.mem_append.1 hx0 with hx0 | hx0
          · exact Or.inl ⟨c1, hc1, hx0⟩
          · simp at hx0; subst hx0
            exact Or.inr ⟨_, by simp, hq⟩
        · exact Or.inl ⟨c1, hc1, hx0⟩
      · right
        refine ⟨nodes, ?_, hq⟩
        have := (g4 x nodes hn).1
        rw [List.lookup_cons]
        have hne : (x == i) = false := by simp; omega
        rw [hne]; exact hn
    · intro x nodes hl
      rw [List.lookup_cons] at hl
      split at hl
      · rename_i hxi
        simp at hxi; subst hxi
        simp at hl; subst hl
        exact ⟨Nat.le_refl _, fun q hq => mark_paths _ _ _ t q hq⟩
      · have := g4 x nodes hl
        exact ⟨by omega, fun q hq => by rw [← hm]; exact this.2 q hq⟩

/-! ### invariant of a valid tree -/

/-- Every point query finds exactly the stored segments, and the tag map knows every mark. -/
structure TInv (store : List (Seg V)) (t : Tree) (tagged : List (Nat × List Path)) : Prop where
  cnt : ∀ p j, cnt p t j = hit store[j]? p
  nodup : ∀ q c, chainAt q t = some c → c.Nodup
  tag : ∀ q c x, chainAt q t = some c → x ∈ c → ∃ nodes, tagged.lookup x = some nodes ∧ q ∈ nodes
  path : ∀ x nodes, tagged.lookup x = some nodes → ∀ q ∈ nodes, (chainAt q t).isSome

structure Inv (dv : V) (st : State V) : Prop where
  wf : ∀ s ∈ st.store, s = deleted dv ∨ s.start < s.stop
  tree : st.valid = true → ∃ t, st.root = some t ∧ TInv st.store t st.tagged

variable [DecidableEq V]

theorem Inv.live_lt {dv : V} {st : State V} (h : Inv dv st) : ∀ s ∈ live dv st, s.start < s.stop := by
  intro s hs
  simp only [live, List.mem_filter, decide_eq_true_eq] at hs
  rcases h.wf s hs.1 with h1 | h1
  · exact absurd h1 hs.2
  · exact h1

omit [DecidableEq V] in
theorem inv_mk (dv : V) : Inv dv (mk : State V) := ⟨by simp [mk], by simp [mk]⟩

theorem buildTree_cases (dv : V) (st : State V) (h : Inv dv st) :
    (buildTree dv st).store = live dv st ∧
    ((live dv st = [] ∧ (buildTree dv st).valid = false) ∨
     (live dv st ≠ [] ∧ (buildTree dv st).valid = true ∧ ∃ t, (buildTree dv st).root = some t ∧
        TInv (live dv st) t (buildTree dv st).tagged)) := by
  by_cases he : live dv st = []
  · have : buildNodes (sortUnique (rawKeys (live dv st))) = none := by rw [he]; rfl
    unfold buildTree
    simp only [this]
    exact ⟨trivial, Or.inl ⟨he, trivial⟩⟩
  · have hk : sortUnique (rawKeys (live dv st)) ≠ [] := by
      obtain ⟨s, hs⟩ := List.exists_mem_of_ne_nil _ he
      have : s.start ∈ sortUnique (rawKeys (live dv st)) := by
        rw [mem_sortUnique, mem_rawKeys]; exact ⟨s, hs, Or.inl rfl⟩
      exact List.ne_nil_of_mem this
    obtain ⟨t, lo, hi, h1, h2, h3⟩ := buildNodes_good _ (sortUnique_sorted (rawKeys (live dv st))) hk
    have hf := buildNodes_fresh _ t h1
    have hsegs : ∀ s ∈ live dv st, s.start < s.stop ∧ s.start ∈ sortUnique (rawKeys (live dv st)) ∧
        s.stop ∈ sortUnique (rawKeys (live dv st)) := by
      intro s hs
      refine ⟨h.live_lt s hs, ?_, ?_⟩ <;> rw [mem_sortUnique, mem_rawKeys]
      · exact ⟨s, hs, Or.inl rfl⟩
      · exact ⟨s, hs, Or.inr rfl⟩
    obtain ⟨g1, g2, g3, g4⟩ := markAll_tags (live dv st) 0 t
      (fun q c hc => by rw [hf q c hc]; simp)
    unfold buildTree
    simp only [h1]
    refine ⟨trivial, Or.inr ⟨he, trivial, _, rfl, ?_, g1, ?_, ?_⟩⟩
    · intro p j
      rw [markAll_cnt (live dv st) 0 h2 hsegs h3, hf.cnt]; simp
    · intro q c x hc hx
      rcases g3 q c x hc hx with ⟨c0, hc0, hx0⟩ | hn
      · rw [hf q c0 hc0] at hx0; simp at hx0
      · exact hn
    · intro x nodes hl q hq
      rw [g2]; exact (g4 x nodes hl).2 q hq

theorem buildTree_inv (dv : V) (st : State V) (h : Inv dv st) : Inv dv (buildTree dv st) := by
  obtain ⟨h1, h2⟩ := buildTree_cases dv st h
  constructor
  · rw [h1]; intro s hs; right; exact h.live_lt s hs
  · intro hv
    rcases h2 with ⟨-, h2⟩ | ⟨-, -, t, h3, h4⟩
    · rw [h2] at hv; cases hv
    · exact ⟨t, h3, by rw [h1]; exact h4⟩

omit [DecidableEq V] in
theorem insert_inv {dv : V} {st st' : State V} (h : Inv dv st) {s e : Int} {v : V}
    (hi : insert s e v st = .ok st') : Inv dv st' := by
  unfold insert at hi
  split at hi
  · cases hi
  · simp at hi; subst hi
    refine ⟨?_, by simp⟩
    intro x hx
    rcases List.mem_append.1 hx with hx | hx
    · exact h.wf x hx
    · simp at hx; subst hx; right; show s < e; omega

omit [DecidableEq V] in
theorem hit_deleted (dv : V) (p : Int) : hit (some (deleted dv)) p = 0 := by
  show (if (0 : Int) ≤ p ∧ p < 0 then 1 else 0) = 0
  rw [if_neg (by omega)]

omit [DecidableEq V] in
theorem hit_set (dv : V) (store : List (Seg V)) (pos j : Nat) (p : Int) (hp : pos < store.length) :
    hit (store.set pos (deleted dv))[j]? p = if j = pos then 0 else hit store[j]? p := by
  rw [List.getElem?_set]
  by_cases hj : pos = j
  · subst hj; rw [if_pos rfl, if_pos hp, if_pos rfl]
    exact hit_deleted dv p
  · rw [if_neg hj, if_neg (Ne.symm hj)]

omit [DecidableEq V] in
theorem lookup_filter_ne {β : Type} (l : List (Nat × β)) (pos x : Nat) (hx : x ≠ pos) :
    (l.filter (fun y => decide (y.1 ≠ pos))).lookup x = l.lookup x := by
  induction l with
  | nil => rfl
  | cons a t ih =>
    obtain ⟨k, b⟩ := a
    by_cases hk : k = pos
    · subst hk
      have : ((x == k) : Bool) = false := by simp [hx]
      simp [List.lookup_cons, this]
      simpa using ih
    · rw [List.filter_cons_of_pos (by simp [hk])]
      rw [List.lookup_cons, List.lookup_cons, ih]

omit [DecidableEq V] in
theorem lookup_filter_eq {β : Type} (l : List (Nat × β)) (pos : Nat) :
    (l.filter (fun y => decide (y.1 ≠ pos))).lookup pos = none := by
  rw [List.lookup_eq_none_iff]
  intro a ha
  simp at ha
  simpa using fun h => ha.2 h.symm

omit [DecidableEq V] in
/-- `remove_value_pos` never fails in a reachable state; it clears the entry and nothing else. -/
theorem removeValuePos_inv {dv : V} {st : State V} (h : Inv dv st) {pos : Nat} (hp : pos < st.store.length) :
    ∃ st', removeValuePos dv pos st = .ok st' ∧ st'.store = st.store.set pos (deleted dv) ∧
      st'.valid = st.valid ∧ Inv dv st' := by
  have hwf : ∀ s ∈ st.store.set pos (deleted dv), s = deleted dv ∨ s.start < s.stop := by
    intro s hs
    rcases List.mem_or_eq_of_mem_set hs with hs | hs
    · exact h.wf s hs
    · exact Or.inl hs
  unfold removeValuePos
  rw [if_pos hp]
  by_cases hv : st.valid = false
  · simp only [if_pos hv]
    exact ⟨_, rfl, rfl, rfl, hwf, by simp [hv]⟩
  · have hv' : st.valid = true := by simpa using hv
    obtain ⟨t, ht, inv⟩ := h.tree hv'
    simp only [if_neg hv]
    cases hl : st.tagged.lookup pos with
    | none =>
      simp only
      refine ⟨_, rfl, rfl, rfl, hwf, fun _ => ⟨t, ht, ?_, inv.nodup, inv.tag, inv.path⟩⟩
      intro p j
      rw [hit_set dv _ _ _ _ hp]
      split
      · rename_i hj; subst hj
        unfold SegTree.cnt; rw [List.count_eq_zero]
        intro hm
        obtain ⟨q, c, h1, h2⟩ := mem_descend hm
        obtain ⟨nodes, h3, -⟩ := inv.tag q c _ h1 h2
        rw [hl] at h3; cases h3
      · exact inv.cnt p j
    | some nodes =>
      obtain ⟨t', r1, r2, r3, r4, r5, r6⟩ := removeAll_spec (i := pos) nodes (inv.path pos nodes hl) inv.nodup
      simp only [ht, r1]
      have hgone : ∀ q c, chainAt q t' = some c → pos ∉ c := by
        intro q c hc hm
        obtain ⟨c0, hc0, hsub⟩ := r4 q c hc
        obtain ⟨nodes', h3, h4⟩ := inv.tag q c0 pos hc0 (hsub pos hm)
        rw [hl] at h3; cases h3
        exact r5 q h4 c hc hm
      refine ⟨_, rfl, rfl, rfl, hwf, fun _ => ⟨t', rfl, ?_, r3, ?_, ?_⟩⟩
      · intro p j
        rw [hit_set dv _ _ _ _ hp]
        split
        · rename_i hj; subst hj
          unfold SegTree.cnt; rw [List.count_eq_zero]
          intro hm
          obtain ⟨q, c, h1, h2⟩ := mem_descend hm
          exact hgone q c h1 h2
        · rename_i hj
          rw [r6 p j hj, inv.cnt]
      · intro q c x hc hx
        have hxp : x ≠ pos := by rintro rfl; exact hgone q c hc hx
        obtain ⟨c0, hc0, hsub⟩ := r4 q c hc
        obtain ⟨nodes', h3, h4⟩ := inv.tag q c0 x hc0 (hsub x hx)
        exact ⟨nodes', by rw [lookup_filter_ne _ _ _ hxp]; exact h3, h4⟩
      · intro x nodes' hx q hq
        rw [r2]
        by_cases hxp : x = pos
        · subst hxp; simp only at hx; rw [lookup_filter_eq] at hx; cases hx
        · simp only at hx; rw [lookup_filter_ne _ _ _ hxp] at hx
          exact inv.path x nodes' hx q hq

/-- What `erase_if` does to one entry. -/
def scrub (dv : V) (pred : Seg V → Bool) (s : Seg V) : Seg V :=
  if s ≠ deleted dv ∧ pred s = true then deleted dv else s

theorem scrub_scrub (dv : V) (pred : Seg V → Bool) (s : Seg V) :
    scrub dv pred (scrub dv pred s) = scrub dv pred s := by
  unfold scrub; split <;> simp_all

theorem eraseIfLoop_spec {dv : V} (pred : Seg V → Bool) (n : Nat) (pos : Nat) {st : State V} (h : Inv dv st)
    (hl : pos + n = st.store.length) (c : Nat) :
    ∃ st', eraseIfLoop dv pred n pos st c =
        .ok (st', c + ((st.store.drop pos).filter fun s => decide (s ≠ deleted dv ∧ pred s = true)).length) ∧
      st'.store = st.store.take pos ++ (st.store.drop pos).map (scrub dv pred) ∧
      st'.valid = st.valid ∧ Inv dv st' := by
  induction n generalizing pos st c with
  | zero =>
    have : st.store.drop pos = [] := by simp; omega
    refine ⟨st, by simp [eraseIfLoop, this], ?_, rfl, h⟩
    rw [this, List.take_of_length_le (by omega)]; simp
  | succ n ih =>
    have hp : pos < st.store.length := by omega
    have hd : st.store.drop pos = st.store[pos] :: st.store.drop (pos + 1) := List.drop_eq_getElem_cons hp
    unfold eraseIfLoop
    rw [List.getElem?_eq_getElem hp]
    simp only
    by_cases h1 : st.store[pos] = deleted dv
    · rw [if_pos h1]
      obtain ⟨st', e1, e2, e3, e4⟩ := ih (pos + 1) h (by omega) c
      refine ⟨st', ?_, ?_, e3, e4⟩
      · rw [e1, hd, List.filter_cons_of_neg (by simp [h1])]
      · rw [e2, hd, List.map_cons, List.take_succ_eq_append_getElem hp]
        have : scrub dv pred st.store[pos] = st.store[pos] := by unfold scrub; rw [if_neg (by simp [h1])]
        rw [this, List.append_assoc]; rfl
    · rw [if_neg h1]
      by_cases h2 : pred st.store[pos] = false
      · rw [if_pos h2]
        obtain ⟨st', e1, e2, e3, e4⟩ := ih (pos + 1) h (by omega) c
        refine ⟨st', ?_, ?_, e3, e4⟩
        · rw [e1, hd, List.filter_cons_of_neg (by simp [h2])]
        · rw [e2, hd, List.map_cons, List.take_succ_eq_append_getElem hp]
          have : scrub dv pred st.store[pos] = st.store[pos] := by unfold scrub; rw [if_neg (by simp [h2])]
          rw [this, List.append_assoc]; rfl
      · rw [if_neg h2]
        obtain ⟨st1, r1, r2, r3, r4⟩ := removeValuePos_inv h hp
        rw [r1]
        simp only
        obtain ⟨st', e1, e2, e3, e4⟩ := ih (pos + 1) r4 (by rw [r2]; simp; omega) (c + 1)
        have h2' : pred st.store[pos] = true := by simpa using h2
        have hds : (st.store.set pos (deleted dv)).drop (pos + 1) = st.store.drop (pos + 1) := by
          rw [List.drop_set_of_lt (by omega)]
        refine ⟨st', ?_, ?_, by rw [e3, r3], e4⟩
        · rw [e1, r2, hds, hd, List.filter_cons_of_pos (by simp [h1, h2'])]
          simp; omega
        · rw [e2, r2, hds, hd, List.map_cons]
          have : scrub dv pred st.store[pos] = deleted dv := by simp [scrub, h1, h2']
          rw [this, List.take_set, List.take_succ_eq_append_getElem hp]
          have hlen : (List.take pos st.store).length = pos := by simp; omega
          rw [List.set_append_right _ _ (by omega)]
          have : pos - (List.take pos st.store).length = 0 := by omega
          rw [this]; simp

theorem eraseIf_spec {dv : V} (pred : Seg V → Bool) {st : State V} (h : Inv dv st) :
    ∃ st', eraseIf dv pred st = .ok (st', ((live dv st).filter pred).length) ∧
      st'.store = st.store.map (scrub dv pred) ∧ st'.valid = st.valid ∧ Inv dv st' := by
  obtain ⟨st', e1, e2, e3, e4⟩ := eraseIfLoop_spec pred st.store.length 0 h (by simp) 0
  refine ⟨st', ?_, by simpa using e2, e3, e4⟩
  unfold eraseIf
  rw [e1]
  congr 2
  simp only [List.drop_zero, Nat.zero_add, live, List.filter_filter]
  congr 1
  apply List.filter_congr
  intro x _
  by_cases h1 : x = deleted dv <;> by_cases h2 : pred x = true <;> simp [h1, h2]

theorem live_scrub (dv : V) (pred : Seg V → Bool) (l : List (Seg V)) :
    (l.map (scrub dv pred)).filter (fun s => decide (s ≠ deleted dv)) =
      (l.filter (fun s => decide (s ≠ deleted dv))).filter (fun s => !pred s) := by
  induction l with
  | nil => rfl
  | cons a t ih =>
    rw [List.map_cons]
    by_cases h1 : a = deleted dv
    · subst h1
      have : scrub dv pred (deleted dv) = deleted dv := by simp [scrub]
      rw [this, List.filter_cons_of_neg (by simp), List.filter_cons_of_neg (by simp)]
      exact ih
    · rw [List.filter_cons_of_pos (a := a) (by simp [h1])]
      by_cases h2 : pred a = true
      · have : scrub dv pred a = deleted dv := by simp [scrub, h1, h2]
        rw [this, List.filter_cons_of_neg (by simp), List.filter_cons_of_neg (by simp [h2])]
        exact ih
      · have : scrub dv pred a = a := by simp [scrub, h2]
        rw [this, List.filter_cons_of_pos (by simp [h1]), List.filter_cons_of_pos (by simp [h2])]
        rw [ih]

theorem copy_inv {dv : V} {st : State V} (h : Inv dv st) : Inv dv (copy dv st) := by
  unfold copy
  by_cases hv : st.valid = true
  · simp only [if_pos hv]
    -- the tree is rebuilt; the invariant of the intermediate object is not needed beyond `wf`
    have h' : Inv dv (⟨st.store, none, [], [], false⟩ : State V) := ⟨h.wf, by simp⟩
    have : buildTree dv (⟨st.store, none, [], [], st.valid⟩ : State V) =
        buildTree dv (⟨st.store, none, [], [], false⟩ : State V) := rfl
    rw [this]
    exact buildTree_inv dv _ h'
  · simp only [if_neg hv]
    exact ⟨h.wf, fun h2 => absurd h2 hv⟩

theorem step_inv {dv : V} {st st' : State V} (h : Inv dv st) {o : Op V} (hs : step dv st o = .ok st') :
    Inv dv st' := by
  cases o with
  | insert s e v =>
    simp only [step] at hs
    cases hi : insert s e v st with
    | ok x => rw [hi] at hs; simp at hs; subst hs; exact insert_inv h hi
    | err x => rw [hi] at hs; simp at hs; subst hs; exact h
    | ub => rw [hi] at hs; cases hs
  | build => simp [step] at hs; subst hs; exact buildTree_inv dv st h
  | eraseAt pos =>
    simp only [step] at hs
    by_cases hp : pos < st.store.length
    · obtain ⟨s1, h1, -, -, h4⟩ := removeValuePos_inv h hp
      rw [h1] at hs; cases hs; exact h4
    · unfold removeValuePos at hs; rw [if_neg hp] at hs; cases hs
  | eraseIf pred =>
    obtain ⟨s1, h1, -, -, h4⟩ := eraseIf_spec pred h
    simp [step, h1, Outcome.map] at hs; subst hs; exact h4
  | clear => simp [step] at hs; subst hs; exact inv_mk dv
  | recopy => simp [step] at hs; subst hs; exact copy_inv h

theorem run_inv {dv : V} (ops : List (Op V)) {st st' : State V} (h : Inv dv st) (hr : run dv st ops = .ok st') :
    Inv dv st' := by
  induction ops generalizing st with
  | nil => simp [run] at hr; subst hr; exact h
  | cons o os ih =>
    unfold run at hr
    cases hs : step dv st o with
    | ok s1 => rw [hs] at hr; exact ih (step_inv h hs) hr
    | err x => rw [hs] at hr; cases hr
    | ub => rw [hs] at hr; cases hr

/-! ### search results -/

omit [DecidableEq V] in
theorem flatten_filter_ne_nil (l : List (List Nat)) : (l.filter (fun c => decide (c ≠ []))).flatten = l.flatten := by
  induction l with
  | nil => rfl
  | cons a t ih =>
    by_cases h : a = []
    · subst h; rw [List.filter_cons_of_neg (by simp)]; simpa using ih
    · rw [List.filter_cons_of_pos (by simp [h]), List.flatten_cons, List.flatten_cons, ih]

theorem stab_live (dv : V) (st : State V) (p : Int) : stab (live dv st) p = stab st.store p := by
  unfold stab live
  rw [List.filter_filter]
  apply List.filter_congr
  intro x _
  by_cases h : x = deleted dv
  · subst h
    have : (deleted dv).contains p = false := by
      have h0 : ¬ ((0 : Int) ≤ p ∧ p < 0) := by omega
      exact decide_eq_false h0
    simp [this]
  · simp [h]

omit [DecidableEq V] in
theorem mapM_get (store : List (Seg V)) (d : Seg V) (xs : List Nat) (h : ∀ x ∈ xs, x < store.length) :
    xs.mapM (fun i => store[i]?) = some (xs.map (fun i => store[i]?.getD d)) := by
  induction xs with
  | nil => rfl
  | cons a t ih =>
    have ha := h a (by simp)
    rw [List.mapM_cons, ih (fun x hx => h x (by simp [hx])), List.getElem?_eq_getElem ha]
    simp [List.getElem?_eq_getElem ha]

/-- The heart of C11. -/
theorem found_perm {dv : V} {st : State V} (h : Inv dv st) (hv : st.valid = true) (p : Int) :
    ∃ l, found st p = some l ∧ l.Perm (stab (live dv st) p) := by
  obtain ⟨t, ht, inv⟩ := h.tree hv
  have hflat : (search st p).flatten = (descend p t).flatten := by
    unfold search; rw [ht, hv]; exact flatten_filter_ne_nil _
  have hcnt : ∀ j, (descend p t).flatten.count j = hit st.store[j]? p := inv.cnt p
  have hlt : ∀ x ∈ (descend p t).flatten, x < st.store.length := by
    intro x hx
    have h1 := List.count_pos_iff.2 hx
    rw [hcnt] at h1
    by_contra hn
    rw [List.getElem?_eq_none (by omega)] at h1; simp [hit] at h1
  refine ⟨_, by unfold found; rw [hflat]; exact mapM_get st.store (deleted dv) _ hlt, ?_⟩
  have hperm : (descend p t).flatten.Perm
      ((List.range st.store.length).filter (fun j => (st.store[j]?.getD (deleted dv)).contains p)) := by
    rw [List.perm_iff_count]
    intro j
    rw [hcnt]
    by_cases hj : j < st.store.length
    · rw [List.getElem?_eq_getElem hj]
      by_cases hc : (st.store[j]).contains p = true
      · rw [List.count_filter (by simp [List.getElem?_eq_getElem hj, hc])]
        have : (List.range st.store.length).count j = 1 := by
          rw [List.nodup_range.count]; simp [hj]
        rw [this]
        simp only [Seg.contains, decide_eq_true_eq] at hc
        simp [hit, hc]
      · rw [List.count_eq_zero_of_not_mem (by simp [List.getElem?_eq_getElem hj, hc])]
        simp only [Seg.contains, decide_eq_true_eq] at hc
        simp only [hit]; rw [if_neg hc]
    · rw [List.getElem?_eq_none (by omega), List.count_eq_zero_of_not_mem (by simp [hj])]; rfl
  refine (hperm.map _).trans ?_
  rw [stab_live]
  unfold stab
  have hst : st.store = (List.range st.store.length).map (fun j => st.store[j]?.getD (deleted dv)) := by
    apply List.ext_getElem (by simp)
    intro i h1 h2
    simp [List.getElem?_eq_getElem h1]
  conv_rhs => rw [hst]
  rw [List.filter_map]
  exact List.Perm.refl _

omit [DecidableEq V] in
theorem found_invalid (st : State V) (hv : st.valid = false) (p : Int) : found st p = some [] := by
  unfold found search
  rw [hv]; cases st.root <;> rfl

/-! ### result iterator -/

omit [DecidableEq V] in
theorem search_nonempty (st : State V) (p : Int) : ∀ c ∈ search st p, c ≠ [] := by
  intro c hc
  unfold search at hc
  split at hc
  · simp at hc; exact hc.2
  · simp at hc

omit [DecidableEq V] in
theorem iterate_from (res : List (List Nat)) (hne : ∀ c ∈ res, c ≠ []) (fuel : Nat) (ch pos : Nat)
    (c : List Nat) (hc : res[ch]? = some c) (hp : pos < c.length)
    (hf : (c.drop pos).length + (res.drop (ch + 1)).flatten.length < fuel) :
    iterate res fuel ⟨ch, pos, false⟩ = some (c.drop pos ++ (res.drop (ch + 1)).flatten) := by
  induction fuel generalizing ch pos c with
  | zero => omega
  | succ fuel ih =>
    have hlen : ch < res.length := (List.getElem?_eq_some_iff.1 hc).1
    have hnil : res ≠ [] := by rintro rfl; simp at hlen
    have hend : (⟨ch, pos, false⟩ : It) ≠ itEnd res := by
      unfold itEnd; cases res.getLast? <;> simp
    have hcur : itCur res ⟨ch, pos, false⟩ = some c[pos] := by
      simp [itCur, hc, List.getElem?_eq_getElem hp]
    have hd : c.drop pos = c[pos] :: c.drop (pos + 1) := List.drop_eq_getElem_cons hp
    unfold iterate
    rw [if_neg hend, hcur]
    by_cases h1 : pos + 1 = c.length
    · have hdn : c.drop (pos + 1) = [] := by simp; omega
      by_cases h2 : ch + 1 = res.length
      · have hinc : itInc res ⟨ch, pos, false⟩ = some ⟨ch, pos, true⟩ := by simp [itInc, hc, h1, h2]
        rw [hinc]
        have he : (⟨ch, pos, true⟩ : It) = itEnd res := by
          unfold itEnd
          rw [List.getLast?_eq_getElem?]
          have : res.length - 1 = ch := by omega
          rw [this, hc]; simp; omega
        have hrest : res.drop (ch + 1) = [] := by simp; omega
        cases fuel with
        | zero => rw [hrest] at hf; simp at hf; omega
        | succ fuel =>
          have hit0 : iterate res (fuel + 1) ⟨ch, pos, true⟩ = some [] := by
            unfold iterate; rw [if_pos he]
          simp only
          rw [hit0, hd, hdn, hrest]; simp
      · have hinc : itInc res ⟨ch, pos, false⟩ = some ⟨ch + 1, 0, false⟩ := by simp [itInc, hc, h1, h2]
        rw [hinc]
        have hl2 : ch + 1 < res.length := by omega
        have hc2 : res[ch + 1]? = some res[ch + 1] := List.getElem?_eq_getElem hl2
        have hp2 : 0 < (res[ch + 1]).length := List.length_pos_iff.2 (hne _ (List.getElem_mem hl2))
        have hdr : res.drop (ch + 1) = res[ch + 1] :: res.drop (ch + 1 + 1) := List.drop_eq_getElem_cons hl2
        have := ih (ch + 1) 0 res[ch + 1] hc2 hp2 (by
          rw [hdr, hd, hdn] at hf
          simp only [List.length_cons, List.flatten_cons, List.length_append, List.length_nil, List.drop_zero] at hf ⊢
          omega)
        simp only
        rw [this, hd, hdn, hdr]; simp only [Option.map_some, List.drop_zero, List.flatten_cons]; rfl
    · have hinc : itInc res ⟨ch, pos, false⟩ = some ⟨ch, pos + 1, false⟩ := by simp [itInc, hc, h1]
      rw [hinc]
      have := ih ch (pos + 1) c hc (by omega) (by rw [hd] at hf; simp at hf ⊢; omega)
      simp only
      rw [this, hd]; rfl

omit [DecidableEq V] in
theorem iterate_all (res : List (List Nat)) (hne : ∀ c ∈ res, c ≠ []) (fuel : Nat)
    (hf : res.flatten.length < fuel) : iterate res fuel (itBegin res) = some res.flatten := by
  cases res with
  | nil =>
    cases fuel with
    | zero => simp at hf
    | succ n => simp [iterate, itBegin, itEnd]
  | cons c t =>
    have := iterate_from (c :: t) hne fuel 0 0 c rfl (List.length_pos_iff.2 (hne c (by simp)))
      (by simpa using hf)
    simpa [itBegin] using this

end Mdds.SegTree
