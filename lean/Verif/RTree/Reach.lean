import Verif.RTree.Bulk
import Verif.RTree.Write
/-! Histories of an rtree, and what the shape invariant says about every directory. -/
namespace Mdds.RTree

open Node

variable {D : Nat} {V : Type}

/-! ### weakening the shape -/

theorem wfn_mono {S T : Shape} (ht : T.tight → S.tight) (hlo : T.lo ≤ S.lo) (hhi : S.hi ≤ T.hi) :
    ∀ (h : Nat) {n : Node D V}, WFN S h n → WFN T h n := by
  intro h
  induction h with
  | zero =>
    intro n hn
    obtain ⟨l, b, p, c, v, ks, rfl⟩ := wfn_cases hn
    exact ⟨hn.1, hn.2.1, ⟨hn.2.2.1.1, fun t => hn.2.2.1.2 (ht t)⟩, hn.2.2.2⟩
  | succ h ih =>
    intro n hn
    obtain ⟨l, b, p, c, v, ks, rfl⟩ := wfn_cases hn
    refine ⟨hn.1, hn.2.1, ⟨hn.2.2.1.1, fun t => hn.2.2.1.2 (ht t)⟩, ?_⟩
    intro k hk
    obtain ⟨h1, h2, h3, h4⟩ := hn.2.2.2 k hk
    exact ⟨h1, by omega, by omega, ih h4⟩

theorem wfr_mono {S T : Shape} (ht : T.tight → S.tight) (hlo : T.lo ≤ S.lo) (hhi : S.hi ≤ T.hi)
    (hr : T.rlo ≤ S.rlo) {h : Nat} {n : Node D V} (hn : WFR S h n) : WFR T h n :=
  ⟨wfn_mono ht hlo hhi h hn.wfn, hn.par, by have := hn.hi; omega, fun h0 => by have := hn.rlo h0; omega⟩

/-! ### the bulk loader, when it returns -/

theorem packLevels_spec {cfg : Cfg D V} (hcfg : cfg.Ok) : ∀ (fuel depth : Nat) (store : List (Node D V))
    {depth' : Nat} {store' : List (Node D V)},
    (∀ k ∈ store, Raw (bulkShape cfg) depth k) → (0 < depth → 2 ≤ store.length) →
    packLevels cfg fuel depth store = .ok (depth', store') → store'.length ≤ cfg.maxSize ∧
      (∀ k ∈ store', Raw (bulkShape cfg) depth' k) ∧ (entriesL store').Perm (entriesL store) ∧
      (0 < depth' → 2 ≤ store'.length) := by
  intro fuel
  induction fuel with
  | zero => intro depth store _ _ _ _ h; cases h
  | succ fuel ih =>
    intro depth store depth' store' hraw hd he
    simp only [packLevels] at he
    split at he
    · rename_i hbig
      obtain ⟨r1, r2, r3, r4⟩ := packLevel_ok hcfg hraw hbig
      obtain ⟨h1, h2, h3, h4⟩ := ih _ _ r1 (fun _ => r3) he
      exact ⟨h1, h2, h3.trans r2, h4⟩
    · cases he
      exact ⟨by omega, hraw, List.Perm.refl _, hd⟩

theorem bulkLoad_spec {cfg : Cfg D V} (hcfg : cfg.Ok) {vals : List (Box D × V)} (hv : ∀ x ∈ vals, x.1.Valid)
    {t : Node D V} (he : bulkLoad cfg vals = .ok t) :
    ∃ h, WFR (bulkShape cfg) h t ∧ t.entries.Perm vals := by
  unfold bulkLoad at he
  split at he
  · cases he
  · rename_i d s e
    cases he
    obtain ⟨h1, h2, h3, h4⟩ := packLevels_spec hcfg _ _ _ (by
      intro k hk
      simp only [List.mem_map] at hk
      obtain ⟨x, hx, rfl⟩ := hk
      exact ⟨x.1, _, x.2, rfl, hv x hx⟩) (fun h => absurd h (by omega)) e
    have hent : entriesL (vals.map fun x => (Node.val x.1 .null x.2 : Node D V)) = vals := by
      clear * -
      induction vals with
      | nil => rfl
      | cons x vals ih => simp only [List.map_cons, entriesL, entries, ih]; rfl
    rw [hent] at h3
    refine ⟨d, ⟨?_, ?_, ?_, ?_⟩, ?_⟩
    · simp only [pack, Node.moved, reset, setValid, resetKids, Bool.false_eq_true, if_false]
      rw [wfn_dir]
      refine ⟨rfl, by simp, ?_, ?_⟩
      · rw [boxes_resetList]
        have : (s.map (Node.setPar .stale)).map box = s.map box := by simp [Function.comp_def]
        rw [this]; exact ext_fits _ _
      · rw [resetList_eq]
        intro k hk
        simp only [List.mem_map] at hk
        obtain ⟨k1, ⟨k0, hk0, rfl⟩, rfl⟩ := hk
        exact Raw.kid d ((h2 k0 hk0).setPar _)
    · rw [par_reset]; rfl
    · rw [count_reset]; exact h1
    · intro hd; rw [count_reset]; exact h4 hd
    · rw [reset, entries_resetKids, entries_setValid, entries_moved, entries_pack]; exact h3

/-! ### histories -/

/-- Insertions the theorems cover: the root's children's pointers have been invalidated since they
were last reset (true of every tree built by insertions alone), or the root has room for whatever
the call may add to it. -/
def roomy (cfg : Cfg D V) (t : Node D V) : Bool :=
  ! t.valid || (! cfg.forced && decide (t.count < cfg.maxSize)) ||
    decide (t.count + cfg.reinsertion ≤ cfg.maxSize)

/-- The trees a program can build, with the list of what it has stored in them: by any sequence of
construction, bulk loading, insertion, erasure, assigning to a value through an iterator, copying,
moving or swapping, and clearing, in which every call returned, every inserted extent was a proper one, and every insertion and erasure was one
of those covered (`roomy`, `mild`).  The parameter `S` says which of the guarantees the history
preserves: bulk loading gives up the minimum occupancy, erasures that dissolve a directory below the
second level give up exact boxes. -/
inductive Reach (S : Shape) (cfg : Cfg D V) : Node D V → List (Box D × V) → Prop
  | empty : Reach S cfg empty []
  | bulk {vals : List (Box D × V)} {t : Node D V} : S.lo ≤ 1 → (∀ x ∈ vals, x.1.Valid) →
      bulkLoad cfg vals = .ok t → Reach S cfg t vals
  | insert {t t' : Node D V} {l : List (Box D × V)} {b : Box D} {v : V} : Reach S cfg t l → b.Valid →
      roomy cfg t = true → insert cfg t b v = .ok t' → Reach S cfg t' ((b, v) :: l)
  | erase {t t' : Node D V} {l l' : List (Box D × V)} {path : List Nat} {b : Box D} {v : V} :
      Reach S cfg t l → At t path b v → mild cfg t path = true →
      (S.tight → mildTight cfg t path = true) →
      keeps cfg t path = true ∨ (2 ≤ S.lo ∧ S.rlo = 2 ∧ l.length < S.lo ^ (cfg.maxDepth + 1)) →
      eraseAt cfg t path = .ok t' → l.Perm ((b, v) :: l') → Reach S cfg t' l'
  | write {t t' : Node D V} {l l' : List (Box D × V)} {path : List Nat} {b : Box D} {v v' : V} : Reach S cfg t l →
      At t path b v → writeAt v' path t = .ok t' → l.Perm ((b, v) :: l') → Reach S cfg t' ((b, v') :: l')
  | copy {t : Node D V} {l : List (Box D × V)} : Reach S cfg t l → Reach S cfg (copy t) l
  | move {t : Node D V} {l : List (Box D × V)} : Reach S cfg t l → Reach S cfg (relocate t) l

theorem roomy_iff {S : Shape} {cfg : Cfg D V} (hg : Good S cfg) {t : Node D V} (h : roomy cfg t = true) :
    t.valid = false ∨ (cfg.forced = false ∧ t.count < S.hi) ∨ t.count + cfg.reinsertion ≤ S.hi := by
  rw [hg.hi]
  simp only [roomy, Bool.or_eq_true, Bool.and_eq_true, Bool.not_eq_true', decide_eq_true_eq] at h
  rcases h with (h | h) | h
  · exact Or.inl h
  · exact Or.inr (Or.inl h)
  · exact Or.inr (Or.inr h)

theorem reach_wf {S : Shape} {cfg : Cfg D V} (hg : Good S cfg) {t : Node D V} {l : List (Box D × V)}
    (hr : Reach S cfg t l) : ∃ h, WFR S h t ∧ t.entries.Perm l := by
  induction hr with
  | empty => exact ⟨0, empty_ok S, List.Perm.refl _⟩
  | bulk h1 h2 h3 =>
    obtain ⟨h, hw, hp⟩ := bulkLoad_spec hg.ok h2 h3
    exact ⟨h, wfr_mono (fun _ => trivial) h1 (by rw [hg.hi]; exact Nat.le_refl _) hg.rlo2 hw, hp⟩
  | insert _ hb hroom he ih =>
    obtain ⟨h, hw, hp⟩ := ih
    rcases insert_ok hg _ _ hb hw (roomy_iff hg hroom) with ⟨t', h', e, w, p, -⟩ | ⟨e, -⟩
    · rw [e] at he; cases he
      exact ⟨h', w, p.trans (hp.cons _)⟩
    · rw [e] at he; cases he
  | erase _ hat hm ht hk he hl ih =>
    obtain ⟨h, hw, hp⟩ := ih
    obtain ⟨t', h', e, w, p⟩ := erase_ok hg hw hat hm ht (by rw [hp.length_eq]; exact hk)
    rw [e] at he; cases he
    exact ⟨h', w, ((p.symm.trans hp).trans hl).cons_inv⟩
  | write _ hat he hl ih =>
    obtain ⟨h, hw, hp⟩ := ih
    obtain ⟨m, p1, p2⟩ := write_perm hat he
    exact ⟨h, write_wfr hw hat he, p2.trans ((p1.symm.trans (hp.trans hl)).cons_inv.cons _)⟩
  | copy _ ih => obtain ⟨h, hw, hp⟩ := ih; exact ⟨h, (copy_ok hw).1, by rw [(copy_ok hw).2.1]; exact hp⟩
  | move _ ih => obtain ⟨h, hw, hp⟩ := ih; exact ⟨h, (relocate_ok hw).1, by rw [(relocate_ok hw).2.1]; exact hp⟩

theorem good_strict {cfg : Cfg D V} (h : cfg.Ok) : Good (strict cfg) cfg :=
  ⟨h, h.min_pos, Nat.le_refl _, rfl, Nat.le_succ 1, Nat.le_refl _⟩

theorem good_covering {cfg : Cfg D V} (h : cfg.Ok) : Good (covering cfg) cfg :=
  ⟨h, h.min_pos, Nat.le_refl _, rfl, Nat.le_succ 1, Nat.le_refl _⟩

theorem good_bulk {cfg : Cfg D V} (h : cfg.Ok) : Good (bulkShape cfg) cfg :=
  ⟨h, Nat.le_refl _, h.min_pos, rfl, Nat.le_succ 1, Nat.le_refl _⟩

/-! ### what the invariant says about every directory -/

theorem mem_dirsL {ks : List (Node D V)} {m : Node D V} : m ∈ dirsL ks ↔ ∃ k ∈ ks, m ∈ dirs k := by
  induction ks with
  | nil => simp [dirsL]
  | cons k ks ih => simp [dirsL, ih]

theorem dirs_wf {S : Shape} : ∀ (h : Nat) {n : Node D V}, WFN S h n → ∀ m ∈ dirsL n.kids,
    (∃ h', WFN S h' m) ∧ S.lo ≤ m.count ∧ m.count ≤ S.hi := by
  intro h
  induction h with
  | zero =>
    intro n hn m hm
    obtain ⟨l, b, p, c, v, ks, rfl⟩ := wfn_cases hn
    obtain ⟨k, hk, hm⟩ := mem_dirsL.1 hm
    obtain ⟨kb, kv, rfl, _⟩ := hn.2.2.2 k hk
    simp [dirs] at hm
  | succ h ih =>
    intro n hn m hm
    obtain ⟨l, b, p, c, v, ks, rfl⟩ := wfn_cases hn
    obtain ⟨k, hk, hm⟩ := mem_dirsL.1 hm
    obtain ⟨h1, h2, h3, h4⟩ := hn.2.2.2 k hk
    obtain ⟨l', b', p', c', v', ks', rfl⟩ := wfn_cases h4
    simp only [dirs, List.mem_cons] at hm
    rcases hm with rfl | hm
    · exact ⟨⟨h, h4⟩, h2, h3⟩
    · exact ih h4 m hm

theorem wfn_count {S : Shape} {h : Nat} {n : Node D V} (hn : WFN S h n) : n.count = n.kids.length := by
  obtain ⟨l, b, p, c, v, ks, rfl⟩ := wfn_cases hn
  exact (wfn_dir.1 hn).2.1

theorem wfn_entries_ne {S : Shape} (h1 : 1 ≤ S.lo) {h : Nat} {n : Node D V} (hn : WFN S h n) (hc : 1 ≤ n.count) :
    n.entries ≠ [] := by
  have := entries_ge h hn
  have h2 : 1 ≤ S.lo ^ h := Nat.one_le_pow _ _ (by omega)
  have h3 : 1 * 1 ≤ n.count * S.lo ^ h := Nat.mul_le_mul hc h2
  intro he
  rw [he] at this
  simp at this
  omega

theorem wfn_bounding {S : Shape} (hτ : S.tight) (h1 : 1 ≤ S.lo) : ∀ (h : Nat) {n : Node D V}, WFN S h n →
    Bounding n.box (n.entries.map Prod.fst) := by
  intro h
  induction h with
  | zero =>
    intro n hn
    obtain ⟨l, b, p, c, v, ks, rfl⟩ := wfn_cases hn
    obtain ⟨-, -, h3, h4⟩ := wfn_dir.1 hn
    have : (entriesL ks).map Prod.fst = ks.map box := by
      clear * - h4
      induction ks with
      | nil => rfl
      | cons k ks ih =>
        obtain ⟨kb, kv, rfl, _⟩ := h4 k (by simp)
        simp only [entriesL, entries, List.map_append, List.map_cons, List.map_nil, box]
        rw [ih (fun k hk => h4 k (by simp [hk]))]
        rfl
    show Bounding b ((entriesL ks).map Prod.fst)
    rw [this]; exact h3.2 hτ
  | succ h ih =>
    intro n hn
    have hcov := covers_entries (h + 1) hn
    obtain ⟨l, b, p, c, v, ks, rfl⟩ := wfn_cases hn
    obtain ⟨-, -, h3, h4⟩ := wfn_dir.1 hn
    obtain ⟨b1, b2, b3⟩ := h3.2 hτ
    refine ⟨?_, ?_, ?_⟩
    · intro x hx
      obtain ⟨e, he, rfl⟩ := List.mem_map.1 hx
      exact (hcov e he).1 e.1 (by simp)
    · intro he
      cases ks with
      | nil => exact b2 rfl
      | cons k ks =>
        exfalso
        obtain ⟨_, k2, _, k4⟩ := h4 k (by simp)
        have hne := wfn_entries_ne h1 k4 (by omega)
        simp [entries, entriesL] at he
        exact hne he.1
    · intro hne i
      have hks : ks.map box ≠ [] := by
        intro he
        have : ks = [] := by simpa using he
        subst this
        exact hne rfl
      have key : ∀ k ∈ ks, Attained k.box (k.entries.map Prod.fst) := by
        intro k hk
        obtain ⟨_, k2, _, k4⟩ := h4 k hk
        refine (ih k4).2.2 ?_
        have := wfn_entries_ne h1 k4 (by omega)
        simpa using this
      have up : ∀ k ∈ ks, ∀ x ∈ k.entries.map Prod.fst, x ∈ (entriesL ks).map Prod.fst := by
        intro k hk x hx
        obtain ⟨e, he, rfl⟩ := List.mem_map.1 hx
        exact List.mem_map.2 ⟨e, by rw [entriesL_eq]; exact List.mem_flatMap.2 ⟨k, hk, he⟩, rfl⟩
      obtain ⟨⟨x, hx, hxe⟩, ⟨y, hy, hye⟩⟩ := b3 hks i
      obtain ⟨k, hk, rfl⟩ := List.mem_map.1 hx
      obtain ⟨k', hk', rfl⟩ := List.mem_map.1 hy
      obtain ⟨⟨z, hz, hze⟩, -⟩ := key k hk i
      obtain ⟨-, ⟨w, hw, hwe⟩⟩ := key k' hk' i
      exact ⟨⟨z, up k hk z hz, by rw [hze, hxe]; rfl⟩, ⟨w, up k' hk' w hw, by rw [hwe, hye]; rfl⟩⟩

theorem at_length {S : Shape} : ∀ (h : Nat) {n : Node D V}, WFN S h n → ∀ {path : List Nat} {b : Box D} {v : V},
    At n path b v → path.length = h + 1 := by
  intro h
  induction h with
  | zero =>
    intro n hn path b v ha
    obtain ⟨l, b', p, c, v', ks, rfl⟩ := wfn_cases hn
    cases path with
    | nil => simp [At] at ha
    | cons i r =>
      obtain ⟨k, hk, ha⟩ := ha
      obtain ⟨kb, kv, rfl, _⟩ := hn.2.2.2 k (List.mem_of_getElem? hk)
      cases r with
      | nil => rfl
      | cons j r => simp [At] at ha
  | succ h ih =>
    intro n hn path b v ha
    obtain ⟨l, b', p, c, v', ks, rfl⟩ := wfn_cases hn
    cases path with
    | nil => simp [At] at ha
    | cons i r =>
      obtain ⟨k, hk, ha⟩ := ha
      obtain ⟨_, _, _, h4⟩ := hn.2.2.2 k (List.mem_of_getElem? hk)
      simp [ih h4 ha]

/-- `check_integrity` accepts. -/
theorem integrity_kid {cfg : Cfg D V} : ∀ (h : Nat) {n : Node D V} (pb : Box D), Kid (strict cfg) h n →
    Covers pb [n.box] → integrityN cfg (some (h == 0, pb)) n = true := by
  intro h
  induction h with
  | zero =>
    intro n pb hn hc
    obtain ⟨kb, kv, rfl, _⟩ := hn
    simp only [integrityN, Bool.and_eq_true, decide_eq_true_eq]
    exact ⟨⟨by simp, (contains_iff _ _).2 hc⟩, rfl⟩
  | succ h ih =>
    intro n pb hn hc
    obtain ⟨h1, h2, h3, h4⟩ := hn
    obtain ⟨l, b, p, c, v, ks, rfl⟩ := wfn_cases h4
    obtain ⟨w1, w2, w3, w4⟩ := wfn_dir.1 h4
    simp only [integrityN, Bool.and_eq_true, decide_eq_true_eq, Bool.or_eq_true]
    refine ⟨⟨⟨⟨⟨⟨⟨h1, (contains_iff _ _).2 hc⟩, by simp⟩, w2⟩, Or.inr h2⟩, h3⟩, bounding_iff.1 (w3.2 trivial)⟩, ?_⟩
    have : ∀ k ∈ ks, integrityN cfg (some (l, b)) k = true := by
      intro k hk
      subst w1
      exact ih b (w4 k hk) (covers_mem w3.1 (List.mem_map.2 ⟨k, hk, rfl⟩))
    clear * - this
    induction ks with
    | nil => rfl
    | cons k ks ih =>
      simp only [integrityL, Bool.and_eq_true]
      exact ⟨this k (by simp), ih fun k hk => this k (by simp [hk])⟩

theorem integrity_root {cfg : Cfg D V} {h : Nat} {n : Node D V} (hn : WFR (strict cfg) h n)
    (hc : n.isLeaf = true ∨ cfg.minSize ≤ n.count) : integrityOk cfg n = true := by
  obtain ⟨w, p1, p2, p3⟩ := hn
  obtain ⟨l, b, p, c, v, ks, rfl⟩ := wfn_cases w
  obtain ⟨w1, w2, w3, w4⟩ := wfn_dir.1 w
  have p1' : p = .null := p1
  simp only [integrityOk, integrityN, Bool.and_eq_true, decide_eq_true_eq, Bool.or_eq_true]
  refine ⟨⟨⟨⟨⟨p1', w2⟩, ?_⟩, p2⟩, bounding_iff.1 (w3.2 trivial)⟩, ?_⟩
  · rcases hc with hc | hc
    · exact Or.inl ⟨p1', hc⟩
    · exact Or.inr hc
  have : ∀ k ∈ ks, integrityN cfg (some (l, b)) k = true := by
    intro k hk
    subst w1
    exact integrity_kid h b (w4 k hk) (covers_mem w3.1 (List.mem_map.2 ⟨k, hk, rfl⟩))
  clear * - this
  induction ks with
  | nil => rfl
  | cons k ks ih =>
    simp only [integrityL, Bool.and_eq_true]
    exact ⟨this k (by simp), ih fun k hk => this k (by simp [hk])⟩

/-! ### searching -/

open Classical in
theorem exact_of {S : Shape} {h : Nat} {t : Node D V} (hw : WFR S h t) {l : List (Box D × V)}
    (hp : t.entries.Perm l) {dc vc : Box D → Bool} {P : Box D → Prop}
    (hmono : ∀ b c, Covers b [c] → c.Valid → vc c = true → dc b = true)
    (hvc : ∀ b : Box D, b.Valid → (vc b = true ↔ P b)) : Exact t l P (searchN dc vc 0 [] t) := by
  refine ⟨?_, searchN_nodup dc vc t 0 [], ?_⟩
  · rw [searchN_eq dc vc hmono t 0 [] h hw.wfn]
    have : (t.entries.filter fun e => vc e.1) = t.entries.filter fun e => decide (P e.1) := by
      apply List.filter_congr
      intro e he
      have := hvc e.1 (covers_entries h hw.wfn e he).2
      by_cases hP : P e.1
      · simp [hP, this.2 hP]
      · have hf : vc e.1 ≠ true := fun h => hP (this.1 h)
        simp [hP]; simpa using hf
    rw [this]
    exact hp.filter _
  · intro x hx
    obtain ⟨r, h1, h2, h3, -⟩ := searchN_at dc vc t 0 [] x hx
    simp only [List.nil_append] at h1
    subst h1
    exact ⟨h3, by omega⟩

end Mdds.RTree
