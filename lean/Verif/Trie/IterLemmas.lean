import Verif.Trie.Lemmas

namespace Mdds.Trie
variable {V : Type}

/-! ### entries -/

theorem entK_cons (pre : Key) (c : Nat) (v : Option V) (k r : Kids V) :
    entK pre (.cons c v k r) = entN (pre ++ [c]) ⟨v, k⟩ ++ entK pre r := rfl

theorem entN_mk (pre : Key) (v : Option V) (k : Kids V) : entN pre ⟨v, k⟩ = optEntry pre v ++ entK pre k := rfl

/-- Entries of children start with the prefix and one of the units. -/
theorem entK_form (c : Nat) : (ks : Kids V) → (pre : Key) → ks.AllGt c → ∀ e ∈ entK pre ks, ∃ d q, e.1 = pre ++ d :: q ∧ c < d
  | .nil, _, _, e, he => by simp [entK] at he
  | .cons d v k r, pre, hg, e, he => by
    rw [entK_cons, entN_mk] at he
    rw [List.mem_append, List.mem_append] at he
    rcases he with (he | he) | he
    · cases v with
      | none => simp [optEntry] at he
      | some x => simp only [optEntry, List.mem_singleton] at he; exact ⟨d, [], by rw [he], hg.1⟩
    · have key : ∀ (ks : Kids V) (p : Key), ∀ e ∈ entK p ks, ∃ q, e.1 = p ++ q := by
        intro ks
        induction ks with
        | nil => intro p e he; simp [entK] at he
        | cons d v k r ih1 ih2 =>
          intro p e he
          rw [entK_cons, entN_mk, List.mem_append, List.mem_append] at he
          rcases he with (he | he) | he
          · cases v with
            | none => simp [optEntry] at he
            | some x => simp only [optEntry, List.mem_singleton] at he; exact ⟨[d], by rw [he]⟩
          · obtain ⟨q, hq⟩ := ih1 _ _ he
            exact ⟨d :: q, by rw [hq]; simp⟩
          · exact ih2 _ _ he
      obtain ⟨q, hq⟩ := key k _ e he
      exact ⟨d, q, by rw [hq]; simp, hg.1⟩
    · exact entK_form c r pre hg.2 e he

theorem lt_append_left (p : Key) {a b : Key} (h : a < b) : p ++ a < p ++ b := by
  induction p with
  | nil => exact h
  | cons c p ih => exact List.cons_lt_cons_iff.2 (Or.inr ⟨rfl, ih⟩)

/-- Every key of the children of a node extends the key of the node. -/
theorem entK_form' : (ks : Kids V) → (pre : Key) → ∀ e ∈ entK pre ks, ∃ d q, e.1 = pre ++ d :: q
  | .nil, _, e, he => by simp [entK] at he
  | .cons d v k r, pre, e, he => by
    rw [entK_cons, entN_mk, List.mem_append, List.mem_append] at he
    rcases he with (he | he) | he
    · cases v with
      | none => simp [optEntry] at he
      | some x => simp only [optEntry, List.mem_singleton] at he; exact ⟨d, [], by rw [he]⟩
    · obtain ⟨d', q, hq⟩ := entK_form' k _ e he
      exact ⟨d, d' :: q, by rw [hq]; simp⟩
    · exact entK_form' r pre e he

theorem entN_form (n : Node V) (pre : Key) (e : Key × V) (he : e ∈ entN pre n) : ∃ q, e.1 = pre ++ q := by
  unfold entN at he
  rw [List.mem_append] at he
  rcases he with he | he
  · cases hv : n.val with
    | none => rw [hv] at he; simp [optEntry] at he
    | some x => rw [hv] at he; simp only [optEntry, List.mem_singleton] at he; exact ⟨[], by rw [he]; simp⟩
  · obtain ⟨d, q, hq⟩ := entK_form' n.kids pre e he
    exact ⟨_, hq⟩

/-- Keys strictly ascending. -/
def Asc (l : List (Key × V)) : Prop := l.Pairwise fun a b => a.1 < b.1

theorem asc_entN_of (pre : Key) (n : Node V) (h : Asc (entK pre n.kids)) : Asc (entN pre n) := by
  unfold entN Asc
  rw [List.pairwise_append]
  refine ⟨by cases n.val <;> simp [optEntry], h, ?_⟩
  intro a ha b hb
  cases hv : n.val with
  | none => rw [hv] at ha; simp [optEntry] at ha
  | some x =>
    rw [hv] at ha
    simp only [optEntry, List.mem_singleton] at ha
    obtain ⟨d, q, hq⟩ := entK_form' _ _ _ hb
    rw [ha, hq]
    have := lt_append_left pre (a := []) (b := d :: q) (List.nil_lt_cons _ _)
    simpa using this

theorem asc_entK : (ks : Kids V) → (pre : Key) → ks.WF → Asc (entK pre ks)
  | .nil, _, _ => List.Pairwise.nil
  | .cons c v k r, pre, hw => by
    rw [entK_cons]
    unfold Asc
    rw [List.pairwise_append]
    refine ⟨asc_entN_of _ _ (asc_entK k _ hw.1), asc_entK r pre hw.2.1, ?_⟩
    intro a ha b hb
    obtain ⟨q, hq⟩ := entN_form _ _ _ ha
    obtain ⟨d, q', hq', hlt⟩ := entK_form c r pre hw.2.2.1 b hb
    rw [hq, hq', List.append_assoc]
    apply lt_append_left
    exact List.cons_lt_cons_iff.2 (Or.inl hlt)

theorem asc_entN (pre : Key) (n : Node V) (hw : n.kids.WF) : Asc (entN pre n) :=
  asc_entN_of pre n (asc_entK _ _ hw)

theorem mem_optEntry (pre : Key) (v : Option V) (e : Key × V) :
    e ∈ optEntry pre v ↔ e.1 = pre ∧ v = some e.2 := by
  cases v with
  | none => simp [optEntry]
  | some x =>
    obtain ⟨a, b⟩ := e
    simp only [optEntry, List.mem_singleton, Prod.mk.injEq, Option.some.injEq]
    constructor
    · rintro ⟨rfl, rfl⟩; exact ⟨rfl, rfl⟩
    · rintro ⟨rfl, rfl⟩; exact ⟨rfl, rfl⟩

theorem mem_entK : (ks : Kids V) → (pre : Key) → ks.WF → ∀ e : Key × V,
    e ∈ entK pre ks ↔ ∃ d q ch, e.1 = pre ++ d :: q ∧ ks.find? d = some ch ∧ denote ch q = some e.2
  | .nil, pre, _, e => by simp [entK, Kids.find?]
  | .cons c v k r, pre, hw, e => by
    rw [entK_cons, entN_mk, List.mem_append, List.mem_append, mem_optEntry, mem_entK k _ hw.1, mem_entK r _ hw.2.1]
    constructor
    · rintro ((⟨h1, h2⟩ | ⟨d, q, ch, h1, h2, h3⟩) | ⟨d, q, ch, h1, h2, h3⟩)
      · exact ⟨c, [], ⟨v, k⟩, h1, by simp [Kids.find?], h2⟩
      · refine ⟨c, d :: q, ⟨v, k⟩, by rw [h1]; simp, by simp [Kids.find?], ?_⟩
        simp only [denote, h2, h3]
      · refine ⟨d, q, ch, h1, ?_, h3⟩
        unfold Kids.find?
        rw [if_neg, h2]
        rintro rfl
        rw [Kids.find?_of_allGt hw.2.2.1 c (Nat.le_refl _)] at h2
        cases h2
    · rintro ⟨d, q, ch, h1, h2, h3⟩
      unfold Kids.find? at h2
      by_cases hd : c = d
      · subst hd
        rw [if_pos rfl] at h2
        cases h2
        cases q with
        | nil => left; left; exact ⟨h1, h3⟩
        | cons a q =>
          left; right
          simp only [denote] at h3
          cases hf : k.find? a with
          | none => rw [hf] at h3; cases h3
          | some ch => rw [hf] at h3; exact ⟨a, q, ch, by rw [h1]; simp, hf, h3⟩
      · rw [if_neg hd] at h2
        right; exact ⟨d, q, ch, h1, h2, h3⟩

theorem mem_entN (n : Node V) (pre : Key) (hw : n.kids.WF) (e : Key × V) :
    e ∈ entN pre n ↔ ∃ q, e.1 = pre ++ q ∧ denote n q = some e.2 := by
  unfold entN
  rw [List.mem_append, mem_optEntry, mem_entK _ _ hw]
  constructor
  · rintro (⟨h1, h2⟩ | ⟨d, q, ch, h1, h2, h3⟩)
    · exact ⟨[], by simp [h1], h2⟩
    · exact ⟨d :: q, h1, by simp only [denote, h2, h3]⟩
  · rintro ⟨q, h1, h2⟩
    cases q with
    | nil => left; exact ⟨by simpa using h1, h2⟩
    | cons d q =>
      right
      simp only [denote] at h2
      cases hf : n.kids.find? d with
      | none => rw [hf] at h2; cases h2
      | some ch => rw [hf] at h2; exact ⟨d, q, ch, h1, hf, h2⟩

theorem length_entK : (ks : Kids V) → (pre : Key) → (entK pre ks).length = ks.count
  | .nil, _ => rfl
  | .cons c v k r, pre => by
    rw [entK_cons, entN_mk, List.length_append, List.length_append, length_entK k, length_entK r]
    rw [show (Kids.cons c v k r).count = (if v.isSome then 1 else 0) + k.count + r.count from rfl]
    cases v <;> simp [optEntry]

theorem length_entN (n : Node V) (pre : Key) : (entN pre n).length = size n := by
  unfold entN size
  rw [List.length_append, length_entK]
  cases n.val <;> simp [optEntry]

theorem entK_ne_nil : (ks : Kids V) → (pre : Key) → ks.WF → ks ≠ .nil → entK pre ks ≠ []
  | .nil, _, _, h => absurd rfl h
  | .cons c v k r, pre, hw, _ => by
    rw [entK_cons, entN_mk]
    intro hc
    rw [List.append_eq_nil_iff, List.append_eq_nil_iff] at hc
    rcases hw.2.2.2 with hv | hk
    · cases v with
      | none => simp at hv
      | some x => simp [optEntry] at hc
    · exact entK_ne_nil k _ hw.1 hk hc.1.2

theorem entN_ne_nil (n : Node V) (pre : Key) (hw : n.kids.WF) (ha : n.Alive) : entN pre n ≠ [] := by
  intro hc
  unfold entN at hc
  rw [List.append_eq_nil_iff] at hc
  rcases ha with hv | hk
  · cases hn : n.val with
    | none => rw [hn] at hv; simp at hv
    | some x => rw [hn] at hc; simp [optEntry] at hc
  · exact entK_ne_nil _ _ hw hk hc.2

/-! ### entries split at a child position -/

def Kids.drop : Kids V → Nat → Kids V
  | ks, 0 => ks
  | .nil, _ + 1 => .nil
  | .cons _ _ _ r, i + 1 => r.drop i

def Kids.take : Kids V → Nat → Kids V
  | _, 0 => .nil
  | .nil, _ + 1 => .nil
  | .cons c v k r, i + 1 => .cons c v k (r.take i)

/-- Number of nodes. -/
def Kids.nodes : Kids V → Nat
  | .nil => 0
  | .cons _ _ k r => 1 + k.nodes + r.nodes

theorem Kids.drop_get {c : Nat} {n : Node V} : {ks : Kids V} → {i : Nat} → ks.get? i = some (c, n) →
    ks.drop i = .cons c n.val n.kids (ks.drop (i + 1))
  | .nil, _, h => by simp [Kids.get?] at h
  | .cons d v k r, 0, h => by
    simp only [Kids.get?, Option.some.injEq, Prod.mk.injEq] at h
    obtain ⟨rfl, rfl⟩ := h
    simp [Kids.drop]
  | .cons d v k r, i + 1, h => by
    simp only [Kids.get?] at h
    simp only [Kids.drop]
    exact Kids.drop_get h

theorem Kids.drop_none : {ks : Kids V} → {i : Nat} → ks.get? i = none → ks.drop i = .nil
  | .nil, 0, _ => rfl
  | .nil, _ + 1, _ => rfl
  | .cons d v k r, 0, h => by simp [Kids.get?] at h
  | .cons d v k r, i + 1, h => by
    simp only [Kids.get?] at h
    simp only [Kids.drop]
    exact Kids.drop_none h

theorem entK_take_drop (pre : Key) : (ks : Kids V) → (i : Nat) → entK pre ks = entK pre (ks.take i) ++ entK pre (ks.drop i)
  | ks, 0 => by simp [Kids.take, Kids.drop, entK]
  | .nil, _ + 1 => by simp [Kids.take, Kids.drop, entK]
  | .cons c v k r, i + 1 => by
    simp only [Kids.take, Kids.drop]
    rw [entK_cons, entK_cons, entK_take_drop pre r i, List.append_assoc]

theorem entK_take_succ (pre : Key) {c : Nat} {n : Node V} : {ks : Kids V} → {i : Nat} → ks.get? i = some (c, n) →
    entK pre (ks.take (i + 1)) = entK pre (ks.take i) ++ entN (pre ++ [c]) n
  | .nil, _, h => by simp [Kids.get?] at h
  | .cons d v k r, 0, h => by
    simp only [Kids.get?, Option.some.injEq, Prod.mk.injEq] at h
    obtain ⟨rfl, rfl⟩ := h
    simp [Kids.take, entK_cons, entK]
  | .cons d v k r, i + 1, h => by
    simp only [Kids.get?] at h
    have := entK_take_succ pre h
    rw [Kids.take, entK_cons, this]
    conv_rhs => rw [Kids.take, entK_cons]
    rw [List.append_assoc]

/-! ### position of an iterator -/

/-- Entries after the subtree of the top item. -/
def afterBelow : Stack V → Key → List (Key × V)
  | [], _ => []
  | (p, i) :: st, buf => entK buf.dropLast (p.kids.drop (i + 1)) ++ afterBelow st buf.dropLast

/-- Entries before the top item. -/
def beforeBelow : Stack V → Key → List (Key × V)
  | [], _ => []
  | (p, i) :: st, buf => beforeBelow st buf.dropLast ++ optEntry buf.dropLast p.val ++ entK buf.dropLast (p.kids.take i)

/-- Number of nodes after the subtree of the top item. -/
def nodesBelow : Stack V → Nat
  | [] => 0
  | (p, i) :: st => (p.kids.drop (i + 1)).nodes + nodesBelow st

theorem Valid.entries {root : Node V} {pre : Key} {n : Node V} {j : Nat} {st : Stack V} {buf : Key}
    (h : Valid root pre ((n, j) :: st) buf) :
    entN pre root = beforeBelow st buf ++ entN buf n ++ afterBelow st buf := by
  generalize hs : (n, j) :: st = s at h
  induction h generalizing n j st with
  | base i =>
    cases hs
    simp [beforeBelow, afterBelow]
  | @push p i st' buf c m j' h hg ih =>
    cases hs
    rw [ih rfl]
    simp only [beforeBelow, afterBelow, List.dropLast_concat]
    rw [show entN buf p = optEntry buf p.val ++ entK buf p.kids from rfl, entK_take_drop buf p.kids i, Kids.drop_get hg,
      entK_cons]
    simp only [List.append_assoc]

theorem Valid.nodes {root : Node V} {pre : Key} {n : Node V} {j : Nat} {st : Stack V} {buf : Key}
    (h : Valid root pre ((n, j) :: st) buf) : n.kids.nodes + nodesBelow st ≤ root.kids.nodes := by
  have hd : ∀ (ks : Kids V) (i : Nat), (ks.drop i).nodes ≤ ks.nodes := by
    intro ks
    induction ks with
    | nil => intro i; cases i <;> simp [Kids.drop]
    | cons d v k r _ ih =>
      intro i
      cases i with
      | zero => simp [Kids.drop]
      | succ i => have := ih i; simp only [Kids.drop, Kids.nodes]; omega
  generalize hs : (n, j) :: st = s at h
  induction h generalizing n j st with
  | base i => cases hs; simp [nodesBelow]
  | @push p i st' buf c m j' h hg ih =>
    cases hs
    have h1 := ih rfl
    have h2 := hd p.kids i
    rw [Kids.drop_get hg, Kids.nodes] at h2
    simp only [nodesBelow]
    omega

theorem Valid.wf {root : Node V} {pre : Key} {n : Node V} {j : Nat} {st : Stack V} {buf : Key}
    (h : Valid root pre ((n, j) :: st) buf) (hw : root.kids.WF) : n.kids.WF := by
  generalize hs : (n, j) :: st = s at h
  induction h generalizing n j st with
  | base i => cases hs; exact hw
  | push j' h hg ih => cases hs; exact (Kids.get?_wf (ih rfl) hg).1

/-- The iterator points to an existing entry, the one with index `i` among the entries of the tree it
walks through. -/
structure IterAt (root : Node V) (pre : Key) (it : Iter V) (i : Nat) : Prop where
  kind : it.kind = .normal
  ex : ∃ n st, it.stack = (n, 0) :: st ∧ Valid root pre ((n, 0) :: st) it.buf ∧ n.val.isSome ∧
    (beforeBelow st it.buf).length = i

theorem IterAt.lt {root : Node V} {pre : Key} {it : Iter V} {i : Nat} (h : IterAt root pre it i) :
    ∃ e, (entN pre root)[i]? = some e ∧ deref it = some e := by
  obtain ⟨hk, n, st, hs, hv, hsome, hl⟩ := h
  obtain ⟨x, hx⟩ := Option.isSome_iff_exists.1 hsome
  refine ⟨(it.buf, x), ?_, ?_⟩
  · rw [hv.entries, ← hl, List.append_assoc, List.getElem?_append_right (Nat.le_refl _), Nat.sub_self]
    unfold entN
    rw [hx]; rfl
  · unfold deref
    rw [hk, hs]
    simp [hx]

/-! ### increment -/

theorem goUp_spec {root : Node V} {pre : Key} : (st : Stack V) → (n : Node V) → (j : Nat) → (buf : Key) →
    Valid root pre ((n, j) :: st) buf → (st = [] → j = n.kids.length) →
    (goUp (n, j) st buf = endIter root pre ∧ afterBelow st buf = []) ∨
      ∃ ch st' buf', goUp (n, j) st buf = ⟨(ch, 0) :: st', buf', .normal⟩ ∧ Valid root pre ((ch, 0) :: st') buf' ∧
        afterBelow st buf = entN buf' ch ++ afterBelow st' buf' ∧
        beforeBelow st' buf' = beforeBelow st buf ++ entN buf n ∧
        nodesBelow st = 1 + ch.kids.nodes + nodesBelow st'
  | [], n, j, buf, hv, hj => by
    left
    cases hv
    rw [hj rfl]
    exact ⟨rfl, rfl⟩
  | (p, i) :: st, n, j, buf, hv, hj => by
    cases hv with
    | @push _ _ _ buf0 c _ _ hv hg =>
    have hb : beforeBelow ((p, i) :: st) (buf0 ++ [c]) ++ entN (buf0 ++ [c]) n =
        beforeBelow st buf0 ++ optEntry buf0 p.val ++ entK buf0 (p.kids.take (i + 1)) := by
      simp only [beforeBelow, List.dropLast_concat]
      rw [entK_take_succ buf0 hg]
      simp only [List.append_assoc]
    unfold goUp
    simp only [List.dropLast_concat]
    cases hn : p.kids.get? (i + 1) with
    | some ch =>
      simp only
      right
      refine ⟨ch.2, (p, i + 1) :: st, buf0 ++ [ch.1], rfl, .push 0 (hv.repos _) hn, ?_, ?_, ?_⟩
      · simp only [afterBelow, List.dropLast_concat]
        rw [Kids.drop_get hn, entK_cons]
        simp only [List.append_assoc]
      · rw [hb]
        simp only [beforeBelow, List.dropLast_concat]
      · simp only [nodesBelow]
        rw [Kids.drop_get hn, Kids.nodes]
        omega
    | none =>
      simp only
      have hl : i + 1 = p.kids.length := by
        have := Kids.get?_lt hg
        have := Kids.get?_none hn
        omega
      have hb2 : beforeBelow ((p, i) :: st) (buf0 ++ [c]) ++ entN (buf0 ++ [c]) n = beforeBelow st buf0 ++ entN buf0 p := by
        rw [hb]
        have := entK_take_drop buf0 p.kids (i + 1)
        rw [Kids.drop_none hn, show entK buf0 (.nil : Kids V) = [] from rfl, List.append_nil] at this
        rw [← this, List.append_assoc]; rfl
      have ha : afterBelow ((p, i) :: st) (buf0 ++ [c]) = afterBelow st buf0 := by
        simp only [afterBelow, List.dropLast_concat]
        rw [Kids.drop_none hn]; rfl
      have hnn : nodesBelow ((p, i) :: st) = nodesBelow st := by
        simp only [nodesBelow]; rw [Kids.drop_none hn]; simp [Kids.nodes]
      rw [ha, hb2, hnn]
      exact goUp_spec st p (i + 1) buf0 (hv.repos _) (fun _ => hl)

theorem inc_spec {root : Node V} {pre : Key} (fuel : Nat) (n : Node V) (st : Stack V) (buf : Key) (kind : Kind)
    (hv : Valid root pre ((n, 0) :: st) buf) (hf : n.kids.nodes + nodesBelow st < fuel) :
    (inc fuel ⟨(n, 0) :: st, buf, kind⟩ = .ok (endIter root pre) ∧ entK buf n.kids ++ afterBelow st buf = []) ∨
      ∃ it', inc fuel ⟨(n, 0) :: st, buf, kind⟩ = .ok it' ∧
        IterAt root pre it' ((beforeBelow st buf).length + (optEntry buf n.val).length) := by
  induction fuel generalizing n st buf kind with
  | zero => omega
  | succ fuel ih =>
    unfold inc
    simp only
    cases hk : n.kids with
    | nil =>
      simp only
      have hent : entN buf n = optEntry buf n.val := by unfold entN; rw [hk]; simp [entK]
      rcases goUp_spec st n 0 buf hv (fun _ => by rw [hk]; rfl) with ⟨e1, e2⟩ | ⟨ch, st', buf', e1, e2, e3, e4, e5⟩
      · left
        rw [e1]
        refine ⟨?_, by simp [entK, e2]⟩
        simp [endIter]
      · rw [e1]
        simp only
        rw [if_neg (by simp)]
        by_cases hc : ch.val.isSome = true
        · rw [if_pos hc]
          right
          refine ⟨_, rfl, rfl, ch, st', rfl, e2, hc, ?_⟩
          simp only
          rw [e4, List.length_append, hent]
        · rw [if_neg hc]
          have hcv : ch.val = none := by cases hh : ch.val <;> simp [hh] at hc ⊢
          have hent' : entN buf' ch = entK buf' ch.kids := by unfold entN; rw [hcv]; simp [optEntry]
          rcases ih ch st' buf' .normal e2 (by rw [hk] at hf; simp only [Kids.nodes] at hf; omega) with ⟨f1, f2⟩ | ⟨it', f1, f2⟩
          · left; refine ⟨f1, ?_⟩
            rw [e3, hent', f2]; simp [entK]
          · right; refine ⟨it', f1, ?_⟩
            have : (beforeBelow st' buf').length + (optEntry buf' ch.val).length =
                (beforeBelow st buf).length + (optEntry buf n.val).length := by
              rw [e4, hcv, List.length_append, hent]; simp [optEntry]
            rw [this] at f2; exact f2
    | cons c v k r =>
      simp only
      rw [if_neg (by simp)]
      have hg : n.kids.get? 0 = some (c, ⟨v, k⟩) := by rw [hk]; rfl
      have hv' : Valid root pre ((⟨v, k⟩, 0) :: (n, 0) :: st) (buf ++ [c]) := .push 0 hv hg
      have hb : beforeBelow ((n, 0) :: st) (buf ++ [c]) = beforeBelow st buf ++ optEntry buf n.val := by
        simp only [beforeBelow, List.dropLast_concat]
        simp [Kids.take, entK]
      have ha : entK buf (.cons c v k r) ++ afterBelow st buf =
          entN (buf ++ [c]) ⟨v, k⟩ ++ afterBelow ((n, 0) :: st) (buf ++ [c]) := by
        simp only [afterBelow, List.dropLast_concat]
        rw [hk]; simp only [Kids.drop]; rw [entK_cons]; simp only [List.append_assoc]
      by_cases hc : v.isSome = true
      · rw [if_pos hc]
        right
        refine ⟨_, rfl, rfl, _, _, rfl, hv', hc, ?_⟩
        simp only
        rw [hb, List.length_append]
      · rw [if_neg hc]
        have hcv : v = none := by cases hh : v <;> simp [hh] at hc ⊢
        have hent' : entN (buf ++ [c]) (⟨v, k⟩ : Node V) = entK (buf ++ [c]) k := by
          unfold entN; rw [hcv]; simp [optEntry]
        have hnn : k.nodes + nodesBelow ((n, 0) :: st) < fuel := by
          simp only [nodesBelow]; rw [hk] at hf ⊢; simp only [Kids.drop, Kids.nodes] at hf ⊢; omega
        rcases ih ⟨v, k⟩ ((n, 0) :: st) (buf ++ [c]) .normal hv' hnn with ⟨f1, f2⟩ | ⟨it', f1, f2⟩
        · left; refine ⟨f1, ?_⟩
          rw [ha, hent', f2]
        · right; refine ⟨it', f1, ?_⟩
          simp only at f2
          have h0 : (optEntry (buf ++ [c]) v).length = 0 := by rw [hcv]; rfl
          rw [hb, h0, Nat.add_zero, List.length_append] at f2; exact f2

/-- `operator++` moves to the next entry, or to the end position. -/
theorem IterAt.inc {root : Node V} {pre : Key} {it : Iter V} {i fuel : Nat} (h : IterAt root pre it i)
    (hf : root.kids.nodes < fuel) :
    (i + 1 = (entN pre root).length ∧ Trie.inc fuel it = .ok (endIter root pre)) ∨
      ∃ it', Trie.inc fuel it = .ok it' ∧ IterAt root pre it' (i + 1) := by
  obtain ⟨stack, buf, kind⟩ := it
  obtain ⟨hk, n, st, hs, hv, hsome, hl⟩ := h
  simp only at hk hs hv hl
  subst hk hs
  obtain ⟨x, hx⟩ := Option.isSome_iff_exists.1 hsome
  have h1 : (optEntry buf n.val).length = 1 := by rw [hx]; rfl
  have hnn := hv.nodes
  rcases inc_spec fuel n st buf .normal hv (by omega) with ⟨e1, e2⟩ | ⟨it', e1, e2⟩
  · left
    refine ⟨?_, e1⟩
    rw [hv.entries]
    unfold entN
    rw [List.append_eq_nil_iff] at e2
    rw [e2.1, e2.2]
    simp [h1, hl]
  · right
    rw [hl, h1] at e2
    exact ⟨it', e1, e2⟩

/-! ### first entry -/

theorem leftmost_spec {root : Node V} {pre : Key} : (v : Option V) → (k : Kids V) → (st : Stack V) → (buf : Key) →
    Valid root pre ((⟨v, k⟩, 0) :: st) buf → k.WF → (v.isSome ∨ k ≠ .nil) →
    ∃ it, leftmost v k ((⟨v, k⟩, 0) :: st) buf = .ok it ∧ IterAt root pre it (beforeBelow st buf).length
  | some x, k, st, buf, hv, _, _ =>
    ⟨⟨(⟨some x, k⟩, 0) :: st, buf, .normal⟩, by cases k <;> rfl, ⟨rfl, ⟨some x, k⟩, st, rfl, hv, rfl, rfl⟩⟩
  | none, .nil, _, _, _, _, ha => by simp at ha
  | none, .cons c v k r, st, buf, hv, hw, _ => by
    unfold leftmost
    obtain ⟨it, e1, e2⟩ := leftmost_spec v k ((⟨none, .cons c v k r⟩, 0) :: st) (buf ++ [c]) (.push 0 hv rfl) hw.1 hw.2.2.2
    refine ⟨it, e1, ?_⟩
    have : beforeBelow ((⟨none, .cons c v k r⟩, 0) :: st) (buf ++ [c]) = beforeBelow st buf := by
      simp only [beforeBelow, List.dropLast_concat]
      simp [Kids.take, entK, optEntry]
    rw [this] at e2; exact e2

/-- `begin()` is the first entry whose key is not empty. -/
theorem begin_spec (root : Node V) (hw : root.kids.WF) :
    (root.kids = .nil ∧ begin_ root = .ok (endIter root [])) ∨
      (root.kids ≠ .nil ∧ ∃ it, begin_ root = .ok it ∧ IterAt root [] it (optEntry [] root.val).length) := by
  unfold begin_
  cases hk : root.kids with
  | nil => left; exact ⟨rfl, rfl⟩
  | cons c v k r =>
    right
    refine ⟨by simp, ?_⟩
    rw [hk] at hw
    obtain ⟨it, e1, e2⟩ := leftmost_spec (root := root) (pre := []) v k [(root, 0)] [c]
      (.push (buf := []) 0 (.base 0) (by rw [hk]; rfl)) hw.1 hw.2.2.2
    refine ⟨it, e1, ?_⟩
    have : beforeBelow [(root, 0)] [c] = optEntry [] root.val := by
      simp [beforeBelow, Kids.take, entK]
    rw [this] at e2; exact e2

theorem searchBegin_spec (n : Node V) (pre : Key) (hw : n.kids.WF) (ha : n.Alive) :
    ∃ it, searchBegin n pre = .ok it ∧ IterAt n pre it 0 :=
  leftmost_spec (root := n) (pre := pre) n.val n.kids [] pre (.base 0) hw ha

/-! ### loops -/

theorem iterEq_end_of_at {root : Node V} {pre : Key} {it : Iter V} {i : Nat} (h : IterAt root pre it i) (p : Key) :
    iterEq it (endIter root p) = false := by
  unfold iterEq
  simp [h.kind, endIter]

theorem iterEq_end (root : Node V) (p : Key) : iterEq (endIter root p) (endIter root p) = true := by
  simp [iterEq, endIter]

theorem collect_spec {root : Node V} {pre : Key} (fuel m : Nat) (it : Iter V) (i : Nat) (h : IterAt root pre it i)
    (hf : root.kids.nodes < fuel) (hm : (entN pre root).length < i + m) :
    collect fuel m it (endIter root pre) = .ok ((entN pre root).drop i) := by
  induction m generalizing it i with
  | zero =>
    obtain ⟨e, he, -⟩ := h.lt
    have := (List.getElem?_eq_some_iff.1 he).1
    omega
  | succ m ih =>
    obtain ⟨e, he, hd⟩ := h.lt
    obtain ⟨hlt, hge⟩ := List.getElem?_eq_some_iff.1 he
    unfold collect
    rw [iterEq_end_of_at h, hd, List.drop_eq_getElem_cons hlt, hge]
    simp only [Bool.false_eq_true, if_false]
    rcases h.inc hf with ⟨e1, e2⟩ | ⟨it', e1, e2⟩
    · rw [e2]
      simp only
      rw [e1, List.drop_length]
      cases m with
      | zero => omega
      | succ m => unfold collect; rw [iterEq_end]; simp
    · rw [e1]
      simp only
      rw [ih it' (i + 1) e2 (by omega)]

/-! ### decrement -/

theorem Kids.get?_length (ks : Kids V) : ks.get? ks.length = none := by
  cases h : ks.get? ks.length with
  | none => rfl
  | some x => exact absurd (Kids.get?_lt h) (Nat.lt_irrefl _)

theorem entK_take_length (pre : Key) (ks : Kids V) : entK pre (ks.take ks.length) = entK pre ks := by
  have h := entK_take_drop pre ks ks.length
  rw [Kids.drop_none ks.get?_length] at h
  rw [h]; simp [entK]

theorem Kids.nodes_get {c : Nat} {n : Node V} : {ks : Kids V} → {i : Nat} → ks.get? i = some (c, n) →
    n.kids.nodes < ks.nodes
  | .nil, _, h => by simp [Kids.get?] at h
  | .cons d v k r, 0, h => by
    simp only [Kids.get?, Option.some.injEq, Prod.mk.injEq] at h
    obtain ⟨-, rfl⟩ := h
    simp only [Kids.nodes]; omega
  | .cons d v k r, i + 1, h => by
    have := Kids.nodes_get (ks := r) (i := i) (by simpa [Kids.get?] using h)
    simp only [Kids.nodes]; omega

theorem descPrev_spec {root : Node V} {pre : Key} (fuel : Nat) (n : Node V) (i : Nat) (st : Stack V) (buf : Key)
    (hv : Valid root pre ((n, i) :: st) buf) (hw : n.kids.WF) (hi : 0 < i) (hl : i ≤ n.kids.length)
    (hf : n.kids.nodes < fuel) :
    ∃ m st' buf', descPrev fuel ((n, i) :: st) buf = .ok ((m, 0) :: st', buf') ∧
      Valid root pre ((m, 0) :: st') buf' ∧ m.val.isSome ∧ m.kids = .nil ∧
      beforeBelow st' buf' ++ entN buf' m = beforeBelow st buf ++ optEntry buf n.val ++ entK buf (n.kids.take i) := by
  induction fuel generalizing n i st buf with
  | zero => omega
  | succ fuel ih =>
    obtain ⟨j, rfl⟩ : ∃ j, i = j + 1 := ⟨i - 1, by omega⟩
    obtain ⟨⟨c, ch⟩, hg⟩ := Kids.get?_some_of_lt (ks := n.kids) (i := j) (by omega)
    have hcw := Kids.get?_wf hw hg
    have hv' : Valid root pre ((ch, ch.kids.length) :: (n, j) :: st) (buf ++ [c]) := .push _ (hv.repos j) hg
    have hb : beforeBelow ((n, j) :: st) (buf ++ [c]) ++ entN (buf ++ [c]) ch =
        beforeBelow st buf ++ optEntry buf n.val ++ entK buf (n.kids.take (j + 1)) := by
      simp only [beforeBelow, List.dropLast_concat]
      rw [entK_take_succ buf hg]; simp only [List.append_assoc]
    unfold descPrev
    simp only [hg]
    by_cases he : ch.kids.isEmpty = true
    · rw [if_pos he]
      have hk := (isEmpty_iff _).1 he
      have h0 : ch.kids.length = 0 := by rw [hk]; rfl
      rw [h0] at hv' ⊢
      refine ⟨ch, (n, j) :: st, buf ++ [c], rfl, hv', ?_, hk, hb⟩
      rcases hcw.2 with h | h
      · exact h
      · exact absurd hk h
    · rw [if_neg he]
      have hk : ch.kids ≠ .nil := fun h => he ((isEmpty_iff _).2 h)
      have hpos : 0 < ch.kids.length := by
        cases hh : ch.kids with
        | nil => exact absurd hh hk
        | cons _ _ _ _ => simp [Kids.length]
      have hn := Kids.nodes_get hg
      obtain ⟨m, st', buf', e1, e2, e3, e4, e5⟩ := ih ch ch.kids.length ((n, j) :: st) (buf ++ [c]) hv' hcw.1 hpos (Nat.le_refl _) (by omega)
      refine ⟨m, st', buf', e1, e2, e3, e4, ?_⟩
      rw [e5, entK_take_length, ← hb]
      unfold entN
      simp only [List.append_assoc]

theorem iterAt_of_before {root : Node V} {pre : Key} {m : Node V} {st' : Stack V} {buf' : Key} {l : List (Key × V)}
    (hv : Valid root pre ((m, 0) :: st') buf') (hs : m.val.isSome) (hk : m.kids = .nil)
    (hb : beforeBelow st' buf' ++ entN buf' m = l) : IterAt root pre ⟨(m, 0) :: st', buf', .normal⟩ (l.length - 1) := by
  refine ⟨rfl, m, st', rfl, hv, hs, ?_⟩
  obtain ⟨x, hx⟩ := Option.isSome_iff_exists.1 hs
  have : (entN buf' m).length = 1 := by unfold entN; rw [hk, hx]; simp [optEntry, entK]
  rw [← hb, List.length_append, this]; simp

theorem decLeaf_spec {root : Node V} {pre : Key} (fuel : Nat) (hw : root.kids.WF) (hf : root.kids.nodes < fuel) :
    (st : Stack V) → (n : Node V) → (j : Nat) → (buf : Key) → Valid root pre ((n, j) :: st) buf →
    0 < (beforeBelow st buf).length →
    ∃ it', decLeaf fuel ((n, j) :: st) buf = .ok it' ∧ IterAt root pre it' ((beforeBelow st buf).length - 1)
  | [], n, j, buf, _, h => by simp [beforeBelow] at h
  | (p, i) :: st, n, j, buf, hv, h => by
    cases hv with
    | @push _ _ _ buf0 c _ _ hv hg =>
    have hb : beforeBelow ((p, i) :: st) (buf0 ++ [c]) =
        beforeBelow st buf0 ++ optEntry buf0 p.val ++ entK buf0 (p.kids.take i) := by
      simp only [beforeBelow, List.dropLast_concat]
    unfold decLeaf
    simp only [List.dropLast_concat]
    by_cases hi : i ≠ 0
    · rw [if_pos hi]
      have hlt := Kids.get?_lt hg
      have hnn := hv.nodes
      obtain ⟨m, st', buf', e1, e2, e3, e4, e5⟩ := descPrev_spec fuel p i st buf0 hv (hv.wf hw) (by omega) (by omega) (by omega)
      rw [e1]
      exact ⟨_, rfl, iterAt_of_before e2 e3 e4 (e5.trans hb.symm)⟩
    · rw [if_neg hi]
      have : i = 0 := by omega
      subst this
      have hb0 : beforeBelow ((p, 0) :: st) (buf0 ++ [c]) = beforeBelow st buf0 ++ optEntry buf0 p.val := by
        rw [hb]; simp [Kids.take, entK]
      by_cases hp : p.val.isSome = true
      · rw [if_pos hp]
        refine ⟨_, rfl, rfl, p, st, rfl, hv, hp, ?_⟩
        obtain ⟨x, hx⟩ := Option.isSome_iff_exists.1 hp
        rw [hb0, hx]; simp [optEntry]
      · rw [if_neg hp]
        have hpn : p.val = none := by cases hh : p.val <;> simp [hh] at hp ⊢
        have hb1 : beforeBelow ((p, 0) :: st) (buf0 ++ [c]) = beforeBelow st buf0 := by
          rw [hb0, hpn]; simp [optEntry]
        rw [hb1] at h ⊢
        exact decLeaf_spec fuel hw hf st p 0 buf0 hv h

/-- `operator--` from a node without children. -/
theorem IterAt.dec_leaf {root : Node V} {pre : Key} {it : Iter V} {i fuel : Nat} (h : IterAt root pre it (i + 1))
    (hw : root.kids.WF) (hf : root.kids.nodes < fuel)
    (hleaf : ∀ n st, it.stack = n :: st → n.1.kids = .nil) :
    ∃ it', dec fuel it = .ok it' ∧ IterAt root pre it' i := by
  obtain ⟨stack, buf, kind⟩ := it
  obtain ⟨hk, n, st, hs, hv, hsome, hl⟩ := h
  simp only at hk hs hv hl hleaf
  subst hk hs
  have hn := hleaf _ _ rfl
  simp only at hn
  cases st with
  | nil => simp [beforeBelow] at hl
  | cons x st =>
    unfold dec
    simp only [List.isEmpty_cons]
    rw [if_neg (by simp), if_neg (by simp), if_pos ((isEmpty_iff _).2 hn)]
    obtain ⟨it', e1, e2⟩ := decLeaf_spec fuel hw hf (x :: st) n 0 buf hv (by omega)
    rw [hl] at e2
    exact ⟨it', e1, e2⟩

/-- `--end()` when the tree's own root has no value. -/
theorem dec_end (root : Node V) (pre : Key) (fuel : Nat) (hw : root.kids.WF) (hf : root.kids.nodes < fuel)
    (hr : root.val = none) (hne : root.kids ≠ .nil) :
    ∃ it', dec fuel (endIter root pre) = .ok it' ∧ IterAt root pre it' ((entN pre root).length - 1) := by
  unfold dec endIter
  simp only [hr, List.isEmpty_nil]
  rw [if_neg (by simp), if_pos trivial]
  have hpos : 0 < root.kids.length := by
    cases hh : root.kids with
    | nil => exact absurd hh hne
    | cons _ _ _ _ => simp [Kids.length]
  obtain ⟨m, st', buf', e1, e2, e3, e4, e5⟩ := descPrev_spec (root := root) (pre := pre) fuel root root.kids.length [] pre
    (.base _) hw hpos (Nat.le_refl _) hf
  rw [e1]
  refine ⟨_, rfl, ?_⟩
  apply iterAt_of_before e2 e3 e4
  rw [e5, entK_take_length, hr]
  unfold entN
  rw [hr]; simp [beforeBelow]

theorem entK_take_form (ks : Kids V) (i : Nat) (pre : Key) (hw : ks.WF) {c : Nat} {n : Node V} (hg : ks.get? i = some (c, n)) :
    ∀ e ∈ entK pre (ks.take i), ∃ d q, e.1 = pre ++ d :: q ∧ d < c := by
  induction ks generalizing i with
  | nil => simp [Kids.get?] at hg
  | cons d v k r _ ih =>
    intro e he
    cases i with
    | zero => simp [Kids.take, entK] at he
    | succ i =>
      simp only [Kids.get?] at hg
      have hlt := Kids.allGt_get hw.2.2.1 hg
      rw [Kids.take, entK_cons, List.mem_append] at he
      rcases he with he | he
      · obtain ⟨q, hq⟩ := entN_form _ _ _ he
        exact ⟨d, q, by rw [hq]; simp, hlt⟩
      · exact ih i hw.2.1 hg e he

theorem getLast?_append_cases {α : Type} (a b : List α) (e : α) (h : (a ++ b).getLast? = some e) (hb : b ≠ []) : e ∈ b := by
  rw [List.getLast?_append] at h
  cases hh : b.getLast? with
  | none => rw [List.getLast?_eq_none_iff] at hh; exact absurd hh hb
  | some x => rw [hh] at h; simp at h; subst h; exact List.mem_of_getLast? hh

theorem Valid.root_of_single {root : Node V} {pre : Key} {p : Node V} {i : Nat} {buf : Key}
    (h : Valid root pre [(p, i)] buf) : p = root ∧ buf = pre := by
  cases h; exact ⟨rfl, rfl⟩

theorem Valid.buf_ne {root : Node V} {pre : Key} {x y : Node V × Nat} {st : Stack V} {buf : Key}
    (h : Valid root pre (x :: y :: st) buf) : buf ≠ [] := by
  cases h; simp

theorem decInner_spec {root : Node V} (fuel : Nat) (hw : root.kids.WF) (hf : root.kids.nodes < fuel) (K : Key) :
    (st : Stack V) → (n : Node V) → (j : Nat) → (buf : Key) → Valid root [] ((n, j) :: st) buf → buf <+: K → ∀ e,
    (beforeBelow st buf).getLast? = some e → (e.1 ≠ [] ∧ e.1 <+: K) ∨ e.1.head? ≠ K.head? ∧ e.1 ≠ [] →
    ∃ it', decInner fuel ((n, j) :: st) buf = .ok it' ∧ IterAt root [] it' ((beforeBelow st buf).length - 1)
  | [], n, j, buf, _, _, e, h, _ => by simp [beforeBelow] at h
  | [(p, i)], n, j, buf, hv, hK, e, he, hcond => by
    cases hv with
    | @push _ _ _ buf0 c _ _ hv hg =>
    obtain ⟨rfl, rfl⟩ := hv.root_of_single
    unfold decInner
    simp only [List.dropLast_concat]
    have hlt := Kids.get?_lt hg
    have hi : 0 < i := by
      rcases Nat.eq_zero_or_pos i with rfl | h
      · exfalso
        have : e ∈ beforeBelow [(p, 0)] ([] ++ [c]) := List.mem_of_getLast? he
        simp only [beforeBelow, List.dropLast_concat, Kids.take, entK, List.append_nil, List.nil_append, mem_optEntry] at this
        rcases hcond with ⟨h1, _⟩ | ⟨_, h1⟩ <;> exact h1 this.1
      · exact h
    obtain ⟨m, st', buf', e1, e2, e3, e4, e5⟩ := descPrev_spec fuel p i [] [] hv (hv.wf hw) hi (by omega) hf
    rw [e1]
    refine ⟨_, rfl, iterAt_of_before e2 e3 e4 ?_⟩
    rw [e5]; simp [beforeBelow]
  | (p, i) :: x :: st, n, j, buf, hv, hK, e, he, hcond => by
    cases hv with
    | @push _ _ _ buf0 c _ _ hv hg =>
    have hb0 : buf0 ≠ [] := hv.buf_ne
    have hi : i = 0 := by
      rcases Nat.eq_zero_or_pos i with h | h
      · exact h
      · exfalso
        simp only [beforeBelow, List.dropLast_concat] at he
        have hne : entK buf0 (p.kids.take i) ≠ [] := by
          obtain ⟨i', rfl⟩ : ∃ i', i = i' + 1 := ⟨i - 1, by omega⟩
          have hlt := Kids.get?_lt hg
          obtain ⟨⟨c', n'⟩, hg'⟩ := Kids.get?_some_of_lt (ks := p.kids) (i := i') (by omega)
          have hcw := Kids.get?_wf (hv.wf hw) hg'
          rw [entK_take_succ buf0 hg']
          intro hc
          rw [List.append_eq_nil_iff] at hc
          exact entN_ne_nil _ _ hcw.1 hcw.2 hc.2
        have hmem := getLast?_append_cases _ _ e he hne
        obtain ⟨d, q, hq, hlt⟩ := entK_take_form p.kids i buf0 (hv.wf hw) hg e hmem
        obtain ⟨t, ht⟩ := hK
        rcases hcond with ⟨-, hp⟩ | ⟨hh, -⟩
        · obtain ⟨t', ht'⟩ := hp
          rw [hq, ← ht, List.append_assoc, List.append_assoc] at ht'
          have := List.append_cancel_left ht'
          simp only [List.cons_append, List.nil_append, List.cons.injEq] at this
          omega
        · apply hh
          rw [hq, ← ht]
          cases buf0 with
          | nil => exact absurd rfl hb0
          | cons a b => rfl
    subst hi
    unfold decInner
    simp only [List.dropLast_concat]
    have hbq : beforeBelow ((p, 0) :: x :: st) (buf0 ++ [c]) = beforeBelow (x :: st) buf0 ++ optEntry buf0 p.val := by
      show beforeBelow (x :: st) (buf0 ++ [c]).dropLast ++ optEntry (buf0 ++ [c]).dropLast p.val ++ entK (buf0 ++ [c]).dropLast (p.kids.take 0) = _
      rw [List.dropLast_concat]; simp [Kids.take, entK]
    by_cases hp : p.val.isSome = true
    · rw [if_pos hp]
      refine ⟨_, rfl, rfl, p, x :: st, rfl, hv, hp, ?_⟩
      obtain ⟨y, hy⟩ := Option.isSome_iff_exists.1 hp
      rw [hbq, hy]; simp [optEntry]
    · rw [if_neg hp]
      have hpn : p.val = none := by cases hh : p.val <;> simp [hh] at hp ⊢
      have hb1 : beforeBelow ((p, 0) :: x :: st) (buf0 ++ [c]) = beforeBelow (x :: st) buf0 := by
        rw [hbq, hpn]; simp [optEntry]
      rw [hb1] at he ⊢
      exact decInner_spec fuel hw hf K (x :: st) p 0 buf0 hv ((List.prefix_append _ _).trans hK) e he hcond

/-- `operator--` from a node with children. -/
theorem IterAt.dec_inner {root : Node V} {it : Iter V} {i fuel : Nat} (h : IterAt root [] it (i + 1))
    (hw : root.kids.WF) (hf : root.kids.nodes < fuel) (e : Key × V) (he : (entN [] root)[i]? = some e)
    (hinner : ∀ n st, it.stack = n :: st → n.1.kids ≠ .nil)
    (hcond : (e.1 ≠ [] ∧ e.1 <+: it.buf) ∨ e.1.head? ≠ it.buf.head? ∧ e.1 ≠ []) :
    ∃ it', dec fuel it = .ok it' ∧ IterAt root [] it' i := by
  obtain ⟨stack, buf, kind⟩ := it
  obtain ⟨hk, n, st, hs, hv, hsome, hl⟩ := h
  simp only at hk hs hv hl hinner hcond
  subst hk hs
  have hn := hinner _ _ rfl
  simp only at hn
  cases st with
  | nil => simp [beforeBelow] at hl
  | cons x st =>
    unfold dec
    simp only [List.isEmpty_cons]
    rw [if_neg (by simp), if_neg (by simp), if_neg (fun h => hn ((isEmpty_iff _).1 h))]
    have hlast : (beforeBelow (x :: st) buf).getLast? = some e := by
      rw [hv.entries, List.append_assoc, List.getElem?_append_left (by omega)] at he
      rw [List.getLast?_eq_getElem?, hl]; exact he
    obtain ⟨it', e1, e2⟩ := decInner_spec fuel hw hf buf (x :: st) n 0 buf hv (List.prefix_refl _) e hlast hcond
    rw [hl] at e2
    exact ⟨it', e1, e2⟩

end Mdds.Trie
