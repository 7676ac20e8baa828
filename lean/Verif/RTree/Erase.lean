import Verif.RTree.Search
/-! Erasing. -/
namespace Mdds.RTree

open Node

variable {D : Nat} {V : Type}

/-- The same shape with another lower bound for the root. -/
def Shape.withRlo (S : Shape) (r : Nat) : Shape := { S with rlo := r }

theorem wfn_rlo {S : Shape} (r : Nat) : ∀ (h : Nat) {n : Node D V}, WFN (S.withRlo r) h n ↔ WFN S h n := by
  intro h
  induction h with
  | zero =>
    intro n
    cases n with
    | val => simp [WFN]
    | dir => simp [WFN, Shape.withRlo]
  | succ h ih =>
    intro n
    cases n with
    | val => simp [WFN]
    | dir =>
      simp only [WFN, ih]
      rfl

theorem eraseKid_entries (l r : List (Node D V)) : entriesL (eraseKid l r) = entriesL l ++ entriesL r := by
  unfold eraseKid
  split
  · exact entriesL_append _ _
  · rw [entriesL_map entries_inval, entriesL_append]

theorem eraseKid_box (l r : List (Node D V)) : (eraseKid l r).map box = l.map box ++ r.map box := by
  unfold eraseKid
  split
  · simp
  · simp [Function.comp_def]

theorem eraseKid_length (l r : List (Node D V)) : (eraseKid l r).length = l.length + r.length := by
  unfold eraseKid
  split <;> simp

theorem inval_val {S : Shape} {k : Node D V} (h : Kid S 0 k) : k.inval = k := by
  obtain ⟨b, v, rfl, _⟩ := h; rfl

theorem eraseKid_leaf {S : Shape} {l r : List (Node D V)} (h : ∀ k ∈ l ++ r, Kid S 0 k) : eraseKid l r = l ++ r := by
  unfold eraseKid
  split
  · rfl
  · conv => rhs; rw [← List.map_id (l ++ r)]
    exact List.map_congr_left fun k hk => inval_val (h k hk)

theorem eraseKid_reset {S : Shape} {h : Nat} {l r : List (Node D V)} (hk : ∀ k ∈ l ++ r, Kid S h k) :
    ∀ k ∈ resetList (eraseKid l r), Kid S h k := by
  rw [resetList_eq]
  intro k hk'
  simp only [List.mem_map] at hk'
  obtain ⟨k1, hk1, rfl⟩ := hk'
  unfold eraseKid at hk1
  split at hk1
  · exact kid_resetKids (hk k1 hk1)
  · simp only [List.mem_map] at hk1
    obtain ⟨k0, hk0, rfl⟩ := hk1
    exact kid_inval_reset (hk k0 hk0)

/-- Insertion of an orphan. -/
theorem insert_none {S : Shape} {cfg : Cfg D V} (hg : Good S cfg) (nb : Box D) (nv : V) (hnb : nb.Valid)
    (fuel : Nat) {h : Nat} {t : Node D V} (hw : WFR S h t) (hs : t.valid = false ∨ t.count < S.hi) :
    (∃ t' h', insertNS cfg (fuel + 1) t nb nv none = .ok (t', none) ∧ WFR S h' t' ∧
      t'.entries.Perm ((nb, nv) :: t.entries) ∧ After h t h' t' 1 ∧ h ≤ h') ∨
    TooDeep S cfg t.entries.length := by
  by_cases hd : h ≤ cfg.maxDepth
  · rcases insert_step hg nb nv hnb none fuel hw hd hs with h0 | ⟨l, _, _, h0, _⟩
    · exact Or.inl h0
    · cases h0
  · exact Or.inr ⟨h, t, by omega, hw, Nat.le_refl _⟩

/-- The loop over the orphaned values. -/
def putBack (cfg : Cfg D V) (r k : Node D V) : Except Fault (Node D V) :=
  match k with
  | .val b _ v => (insertNS cfg (cfg.maxDepth + 2) r b v none).map Prod.fst
  | .dir .. => .error .notFollowed

theorem putBack_ok {S : Shape} {cfg : Cfg D V} (hg : Good S cfg) : ∀ (out : List (Node D V)) (t : Node D V) (h : Nat),
    (∀ k ∈ out, Kid S 0 k) → WFR S h t → (t.valid = false ∨ t.count + out.length ≤ S.hi) →
    (∃ t' h', out.foldlM (putBack cfg) t = .ok t' ∧ WFR S h' t' ∧ t'.entries.Perm (entriesL out ++ t.entries) ∧ h ≤ h') ∨
    TooDeep S cfg (t.entries.length + out.length) := by
  intro out
  induction out with
  | nil =>
    intro t h _ hw _
    exact Or.inl ⟨t, h, rfl, hw, by simp [entriesL], Nat.le_refl _⟩
  | cons k out ih =>
    intro t h hk hw hs
    obtain ⟨kb, kv, rfl, hkb⟩ := hk k (by simp)
    rcases insert_none hg kb kv hkb (cfg.maxDepth + 1) hw (hs.imp id fun h => by simp at h; omega) with
      ⟨t1, h1, e1, w1, p1, a1, le1⟩ | td
    · have hl : t1.entries.length = t.entries.length + 1 := by rw [p1.length_eq]; simp
      have hs2 : t1.valid = false ∨ t1.count + out.length ≤ S.hi := by
        rcases a1 with a1 | ⟨_, a2, a3⟩
        · exact Or.inl a1
        · rcases hs with h0 | h0
          · exact Or.inl (a2.trans h0)
          · exact Or.inr (by simp at h0; omega)
      rcases ih t1 h1 (fun k hk' => hk k (by simp [hk'])) w1 hs2 with ⟨t2, h2, e2, w2, p2, le2⟩ | td
      · left
        refine ⟨t2, h2, ?_, w2, ?_, by omega⟩
        · rw [List.foldlM_cons]
          have : putBack cfg t (Node.val kb .right kv) = .ok t1 := by simp only [putBack, e1]; rfl
          rw [this]; exact e2
        · refine p2.trans ((p1.append_left _).trans ?_)
          simp only [entriesL, entries, List.cons_append, List.nil_append]
          exact List.perm_middle
      · right; exact td.mono (by simp; omega)
    · right; exact td.mono (by simp)

theorem collapse_ok {S : Shape} (hr : S.rlo ≤ 2) (hlo : 2 ≤ S.lo) {h : Nat} {t : Node D V}
    (hw : WFR (S.withRlo 1) h t) (hh : 0 < h) :
    ∃ h', WFR S h' (collapse t) ∧ (collapse t).entries = t.entries := by
  obtain ⟨h, rfl⟩ : ∃ k, h = k + 1 := ⟨h - 1, by omega⟩
  have hwf := (wfn_rlo 1 _).1 hw.wfn
  obtain ⟨l, b, p, c, v, ks, rfl⟩ := wfn_cases hwf
  obtain ⟨-, h2, h3, h4⟩ := wfn_dir.1 hwf
  have hc1 : 1 ≤ c := hw.rlo hh
  by_cases hc : c = 1
  · match ks, h2, h4 with
    | [], h2, _ => simp at h2; omega
    | _ :: _ :: _, h2, _ => simp at h2; omega
    | [k], _, h4 =>
      obtain ⟨k1, k2, k3, k4⟩ := h4 k (by simp)
      have e : collapse (.dir l b p c v [k]) = ((k.moved .stale).setPar .null).reset := by
        simp [collapse, count, hc, kids]
      refine ⟨h, ⟨?_, ?_, ?_, ?_⟩, ?_⟩
      · rw [e]
        have := wfn_inval_reset .stale (wfn_setPar .null k4)
        have e2 : (k.moved .stale).setPar .null = ((k.setPar .null).moved .stale) := by cases k <;> rfl
        rw [reset, e2]; exact this
      · rw [e, par_reset]; simp
      · rw [e, count_reset]; simpa using k3
      · intro _; rw [e, count_reset]; simp; omega
      · rw [e, reset, entries_resetKids]; simp [entries, entriesL]
  · have e : collapse (.dir l b p c v ks) = .dir l b p c v ks := by simp [collapse, count, hc]
    rw [e]
    exact ⟨h + 1, ⟨hwf, hw.par, hw.hi, fun _ => by simp only [count]; omega⟩, rfl⟩

/-- The leaf directory is the root or keeps at least the minimum number of values. -/
def keeps (cfg : Cfg D V) (t : Node D V) (path : List Nat) : Bool :=
  match locate path [] t with
  | none => false
  | some (_, [], _) => true
  | some (n, _ :: _, _) => decide (cfg.minSize < n.count)

/-- The erasures the partial theorems cover.  Either the leaf directory keeps at least the minimum
number of values (or is the root); or it is dissolved, its parent is the root or keeps at least the
minimum number of children, and the root has room for whatever the reinsertions may add to it unless
its children's pointers have been invalidated since it was last reset. -/
def mild (cfg : Cfg D V) (t : Node D V) (path : List Nat) : Bool :=
  match locate path [] t with
  | none => false
  | some (_, [], _) => true
  | some (n, f :: fs, _) =>
    decide (cfg.minSize < n.count) ||
    (fs.isEmpty && decide (t.count + cfg.minSize ≤ cfg.maxSize + 2)) ||
    (! fs.isEmpty && decide (cfg.minSize < f.count) &&
      (! t.valid || decide (t.count + cfg.minSize ≤ cfg.maxSize + 1)))

/-- As `mild`, and no directory is dissolved below a directory that is not the root. -/
def mildTight (cfg : Cfg D V) (t : Node D V) (path : List Nat) : Bool :=
  mild cfg t path &&
    match locate path [] t with
    | some (n, _ :: _ :: _, _) => decide (cfg.minSize < n.count)
    | _ => true

theorem pathOK_shrink {S : Shape} (hS : ¬ S.tight) {h : Nat} {b b' : Box D} (hc : Covers b [b']) :
    ∀ {fs : List (Frame D V)}, PathOK S h b fs → PathOK S h b' fs
  | [], _ => trivial
  | f :: fs, hp => by
    obtain ⟨h1, h2, h3, h4⟩ := hp
    refine ⟨h1, h2, ⟨?_, fun ht => absurd ht hS⟩, h4⟩
    intro x hx
    simp only [List.mem_append, List.mem_cons] at hx
    rcases hx with hx | rfl | hx
    · exact h3.1 x (by simp [hx])
    · have h5 : Covers f.box [b] := covers_mem h3.1 (by simp)
      exact covers_trans h5 hc x (by simp)
    · exact h3.1 x (by simp [hx])

theorem mem_mid {α : Type} {x y : α} {a b : List α} (h : x ∈ a ++ b) : x ∈ a ++ y :: b := by
  rcases List.mem_append.1 h with h | h
  · exact List.mem_append_left _ h
  · exact List.mem_append_right _ (List.mem_cons_of_mem _ h)

theorem mem_mid' {α : Type} {x y : α} {a b : List α} (h : x ∈ a ++ y :: b) : x ∈ y :: (a ++ b) := by
  rcases List.mem_append.1 h with h | h
  · exact List.mem_cons_of_mem _ (List.mem_append_left _ h)
  · rcases List.mem_cons.1 h with rfl | h
    · exact List.mem_cons_self
    · exact List.mem_cons_of_mem _ (List.mem_append_right _ h)

theorem count_dir (l b p c v) (ks : List (Node D V)) : (Node.dir l b p c v ks).count = c := rfl

theorem erase_ok {S : Shape} {cfg : Cfg D V} (hg : Good S cfg)
    {h : Nat} {t : Node D V} (hw : WFR S h t) {path : List Nat} {xb : Box D} {xv : V} (hat : At t path xb xv)
    (hm : mild cfg t path = true) (ht : S.tight → mildTight cfg t path = true)
    (hbig : keeps cfg t path = true ∨
      (2 ≤ S.lo ∧ S.rlo = 2 ∧ t.entries.length < S.lo ^ (cfg.maxDepth + 1))) :
    ∃ t' h', eraseAt cfg t path = .ok t' ∧ WFR S h' t' ∧ t.entries.Perm ((xb, xv) :: t'.entries) := by
  have hw0 : WFR (S.withRlo 1) h t := ⟨(wfn_rlo 1 h).2 hw.wfn, hw.par, hw.hi, fun h0 => by
    have := hw.rlo h0; have := hg.rlo1
    show 1 ≤ t.count
    omega⟩
  obtain ⟨b, p, c, v, ks, fs, i, e, hxi, hxv, w, sl, pk, z, len, pl⟩ :=
    locate_ok (S := S) h path (fs := []) hw.wfn ⟨hw.par, hw.hi, hw.rlo⟩ trivial hat
  simp only [mild, mildTight, keeps, e] at hm ht hbig
  obtain ⟨-, w2, w3, w4⟩ := wfn_dir.1 w
  have hsplit := take_cons_drop hxi
  have hi : i < ks.length := (List.getElem?_eq_some_iff.1 hxi).1
  generalize hL : ks.take i = L at hsplit
  generalize hR : ks.drop (i + 1) = R at hsplit
  have hkLR : ∀ k ∈ L ++ R, Kid S 0 k := by
    intro k hk
    refine w4 k ?_
    rw [← hsplit]
    exact mem_mid hk
  have hEL := eraseKid_leaf hkLR
  have hlen : ks.length = (L ++ R).length + 1 := by rw [← hsplit]; simp; omega
  have hval : t.valid = rv fs v := by
    have := valid_zip fs (.dir true b p c v ks); rw [z] at this; simpa [zip, Node.valid] using this
  have hcnt : t.count = rc fs c := by
    have := count_zip fs (.dir true b p c v ks); rw [z] at this; simpa [zip, Node.count] using this
  have hent : t.entries = pre fs ++ entriesL ks ++ post fs := by
    have := entries_zip fs (.dir true b p c v ks); rw [z] at this; simpa [zip, entries] using this
  have hperm : t.entries.Perm ((xb, xv) :: (pre fs ++ entriesL (L ++ R) ++ post fs)) := by
    rw [hent, ← hsplit, entriesL_append, entriesL_append]
    simp only [entriesL, entries, List.cons_append, List.nil_append, List.append_assoc]
    refine List.Perm.trans ?_ List.perm_middle
    refine List.Perm.append_left _ ?_
    exact List.perm_middle
  have hcov : Covers b ((L ++ R).map box) := by
    intro x hx
    refine w3.1 x ?_
    rw [← hsplit]
    simp only [List.map_append, List.map_cons] at hx ⊢
    exact mem_mid hx
  have hatt : S.tight → Attained b (xb :: (L ++ R).map box) := by
    intro h0
    have hb := (w3.2 h0).2.2 (by rw [← hsplit]; simp)
    intro j
    obtain ⟨⟨x, hx, ex⟩, ⟨y, hy, ey⟩⟩ := hb j
    rw [← hsplit] at hx hy
    simp only [List.map_append, List.map_cons, box] at hx hy ⊢
    exact ⟨⟨x, mem_mid' hx, ex⟩, ⟨y, mem_mid' hy, ey⟩⟩
  by_cases hkeep : p = .null ∨ cfg.minSize ≤ c - 1
  · -- the leaf directory stays
    have hslot : Slot S 0 fs p (c - 1) := by
      cases fs with
      | nil => exact ⟨sl.1, by have := sl.2.1; omega, fun h => absurd h (by omega)⟩
      | cons f fs =>
        have hp := sl.1
        have : cfg.minSize ≤ c - 1 := by
          rcases hkeep with h0 | h0
          · rw [hp] at h0; cases h0
          · exact h0
        exact ⟨hp, by have := hg.lo; omega, by have := sl.2.2; omega⟩
    obtain ⟨t', e1, e2, e3, -⟩ := shrinkUp_ok (S := S) fs (h := 0) (l := true) (b := b) (p := p) (c := c - 1) (v := v)
      (ks := L ++ R) (bb := xb) rfl (by omega) hkLR hcov hatt (by
        intro h0
        cases fs with
        | nil => rfl
        | cons f fs =>
          have := hslot.2.1; have := hg.lo1
          rw [h0] at hlen; simp at hlen; omega) hslot pk
    refine ⟨t', 0 + fs.length, ?_, e2, ?_⟩
    · simp only [eraseAt, e, hxi, Node.par, Node.isLeaf, Node.box, Node.count, Node.valid, Node.kids, hL, hR, hEL]
      rw [if_pos hkeep]; exact e1
    · rw [e3]; exact hperm
  · -- the leaf directory is dissolved
    obtain ⟨hk1, hk2⟩ := not_or.1 hkeep
    cases fs with
    | nil => exact absurd sl.1 hk1
    | cons f fs =>
      have hg0 : Good (S.withRlo 1) cfg := ⟨hg.ok, hg.lo1, hg.lo, hg.hi, Nat.le_refl _, by show 1 ≤ 2; omega⟩
      obtain ⟨b', p', c', v', ks', fs', i', e', hxi', -, w', sl', pk', z', -, -⟩ :=
        locate_ok (S := S.withRlo 1) h path (fs := []) hw0.wfn ⟨hw0.par, hw0.hi, hw0.rlo⟩ trivial hat
      rw [e] at e'
      cases e'
      obtain ⟨q1, q2, q3, q4, q5, q6, q7⟩ := pk'
      have hpr : p = .right := sl.1
      obtain ⟨hlo, hrlo, hbig⟩ : 2 ≤ S.lo ∧ S.rlo = 2 ∧ t.entries.length < S.lo ^ (cfg.maxDepth + 1) := by
        rcases hbig with h0 | h0
        · simp only [decide_eq_true_eq] at h0
          rw [count_dir] at h0; omega
        · exact h0
      have hc1 : c - 1 < cfg.minSize := by omega
      have hcpos : 1 ≤ c := by have := sl.2.1; omega
      have hh : h = fs.length + 1 := by simp at len; omega
      have hkLR0 : ∀ k ∈ L ++ R, Kid (S.withRlo 1) 0 k := hkLR
      let KL := resetList (eraseKid f.left f.right)
      let q : Node D V := .dir f.leaf (ext (KL.map box)) f.par (f.count - 1) true KL
      have hKLk : ∀ k ∈ KL, Kid (S.withRlo 1) 1 k := eraseKid_reset (by
        intro k hk
        rcases List.mem_append.1 hk with hk | hk
        · exact q4 k hk
        · exact q5 k hk)
      have hKLlen : KL.length = f.count - 1 := by
        simp only [KL, length_resetList, eraseKid_length]; omega
      have hKLbox : KL.map box = f.left.map box ++ f.right.map box := by
        simp only [KL, boxes_resetList, eraseKid_box]
      have hKLent : entriesL KL = entriesL f.left ++ entriesL f.right := by
        simp only [KL, entries_resetList, eraseKid_entries]
      have hqw : WFN (S.withRlo 1) 1 q := wfn_dir.2 ⟨by simp [q1], hKLlen.symm, ext_fits _ _, hKLk⟩
      -- the conditions of `mild`
      have hm' : (fs = [] ∧ t.count + cfg.minSize ≤ cfg.maxSize + 2) ∨
          (fs ≠ [] ∧ cfg.minSize < f.count ∧ (t.valid = false ∨ t.count + cfg.minSize ≤ cfg.maxSize + 1)) := by
        simp only [Bool.or_eq_true, Bool.and_eq_true, decide_eq_true_eq, List.isEmpty_iff, Bool.not_eq_true',
          List.isEmpty_eq_false_iff] at hm
        rcases hm with (h0 | h0) | h0
        · rw [count_dir] at h0; omega
        · exact Or.inl h0
        · exact Or.inr ⟨h0.1.1, h0.1.2, h0.2⟩
      have htight : fs ≠ [] → ¬ S.tight := by
        intro hne h0
        have := ht h0
        cases fs with
        | nil => exact hne rfl
        | cons g gs =>
          simp only [Bool.and_eq_true, decide_eq_true_eq] at this
          have := this.2
          rw [count_dir] at this
          omega
      have hslot : Slot (S.withRlo 1) 1 fs q.par q.count := by
        cases fs with
        | nil =>
          refine ⟨q6.1, by have := q6.2.1; simp only [q, count]; omega, fun _ => ?_⟩
          have h2 : t.count = f.count := by rw [hcnt]; rfl
          have := hw.rlo (by omega)
          simp only [q, count]
          show 1 ≤ f.count - 1
          omega
        | cons g gs =>
          rcases hm' with ⟨h0, _⟩ | ⟨_, h0, _⟩
          · cases h0
          · refine ⟨q6.1, ?_, ?_⟩
            · have := hg0.lo; simp only [q, count]; omega
            · have := q6.2.2; simp only [q, count]; omega
      have hpath : PathOK (S.withRlo 1) 1 q.box fs := by
        by_cases hne : fs = []
        · subst hne; trivial
        · refine pathOK_shrink (S := S.withRlo 1) (htight hne) ?_ q7
          simp only [q, box]
          have hfc : cfg.minSize < f.count := by
            rcases hm' with ⟨h0, _⟩ | ⟨_, h0, _⟩
            · exact absurd h0 hne
            · exact h0
          refine ext_covered ?_ ?_
          · intro h0
            have := congrArg List.length h0
            rw [List.length_map, hKLlen] at this
            have := hg.ok.min_pos
            simp at *; omega
          · rw [hKLbox]
            intro x hx
            refine q3.1 x ?_
            exact mem_mid hx
      have hroot := zip_wf fs hqw hslot hpath
      have hcas : cascade cfg fs q (path.length - 2) [] = .ok (zip fs q, []) := by
        unfold cascade
        rw [if_pos]
        cases fs with
        | nil => exact Or.inl q6.1
        | cons g gs =>
          right
          rcases hm' with ⟨h0, _⟩ | ⟨_, h0, _⟩
          · cases h0
          · simp only [q, count]; omega
      have hzent : (zip fs q).entries = pre (f :: fs) ++ post (f :: fs) := by
        rw [entries_zip]
        simp only [q, entries, hKLent, pre, post, List.append_assoc]
      have hsafe : (zip fs q).valid = false ∨ (zip fs q).count + (L ++ R).reverse.length ≤ S.hi := by
        rw [valid_zip, count_zip, List.length_reverse]
        have : (L ++ R).length = c - 1 := by omega
        rw [this, hg.hi]
        cases fs with
        | nil =>
          right
          rcases hm' with ⟨_, h0⟩ | ⟨h0, _⟩
          · have h2 : t.count = f.count := by rw [hcnt]; rfl
            simp only [rc, q, count]; omega
          · exact absurd rfl h0
        | cons g gs =>
          rcases hm' with ⟨h0, _⟩ | ⟨_, _, h0⟩
          · cases h0
          · rcases h0 with h0 | h0
            · left; rw [hval] at h0; exact h0
            · right
              have h2 : t.count = rc (g :: gs) q.count := by rw [hcnt]; rfl
              omega
      rcases putBack_ok hg0 (L ++ R).reverse (zip fs q) (1 + fs.length)
        (fun k hk => hkLR0 k (List.mem_reverse.1 hk)) hroot hsafe with ⟨t2, h2, e2, w2', p2, le2⟩ | td
      · obtain ⟨h3, w3', e3⟩ := collapse_ok hg.rlo2 hlo w2' (by omega)
        refine ⟨collapse t2, h3, ?_, w3', ?_⟩
        · have hq : ((Node.dir f.leaf f.box f.par (f.count - 1) f.valid (eraseKid f.left f.right)).reset).pack.1 = q := rfl
          simp only [eraseAt, e, hxi, Node.par, Node.isLeaf, Node.box, Node.count, Node.valid, Node.kids, hL, hR, hEL]
          rw [if_neg hkeep]
          subst hpr
          simp only [hq, hcas, List.foldlM_nil]
          simp only [pure, Except.pure]
          change (match (L ++ R).reverse.foldlM (putBack cfg) (zip fs q) with
            | .error e => Except.error e
            | .ok root3 => Except.ok (collapse root3)) = _
          rw [e2]
        · rw [e3]
          refine hperm.trans (List.Perm.cons _ ?_)
          refine List.Perm.trans ?_ p2.symm
          rw [hzent]
          refine List.Perm.trans ?_ ((entriesL_perm (List.reverse_perm (L ++ R)).symm).append_right _)
          rw [← List.append_assoc]
          exact List.perm_append_comm.append_right _
      · exfalso
        have h1 := td.bound hg0.lo1
        have h2 := hperm.length_eq
        rw [hzent] at h1
        have h3 : (entriesL (L ++ R)).length = (L ++ R).length := by
          clear * - hkLR
          generalize L ++ R = M at *
          induction M with
          | nil => rfl
          | cons k M ih =>
            obtain ⟨kb, kv, rfl, _⟩ := hkLR k (by simp)
            simp only [entriesL, entries, List.cons_append, List.nil_append, List.length_cons]
            rw [ih (fun k hk' => hkLR k (by simp [hk']))]
        have h4 : (S.withRlo 1).rlo * (S.withRlo 1).lo ^ (cfg.maxDepth + 1) = S.lo ^ (cfg.maxDepth + 1) := by
          show 1 * S.lo ^ (cfg.maxDepth + 1) = _
          rw [Nat.one_mul]
        rw [h4] at h1
        simp only [List.length_append, List.length_cons, List.length_reverse] at h1 h2 h3
        omega

end Mdds.RTree
