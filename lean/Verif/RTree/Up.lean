import Verif.RTree.Lemmas
/-! The way from a node up to the root: packing, enlarging, shrinking and splitting. -/
namespace Mdds.RTree

open Node

variable {D : Nat} {V : Type}

/-- What a node below frames `fs` must satisfy because of its place. -/
def Slot (S : Shape) (h : Nat) (fs : List (Frame D V)) (p : Par) (c : Nat) : Prop :=
  match fs with
  | [] => p = .null ∧ c ≤ S.hi ∧ (0 < h → S.rlo ≤ c)
  | _ :: _ => p = .right ∧ S.lo ≤ c ∧ c ≤ S.hi

/-- The frames above a node of height `h` whose box was `b` when the frames were last adjusted. -/
def PathOK (S : Shape) : Nat → Box D → List (Frame D V) → Prop
  | _, _, [] => True
  | h, b, f :: fs =>
    f.leaf = false ∧ f.count = f.left.length + 1 + f.right.length ∧
    Fits S.tight f.box (f.left.map Node.box ++ b :: f.right.map Node.box) ∧
    (∀ k ∈ f.left, Kid S (h + 1) k) ∧ (∀ k ∈ f.right, Kid S (h + 1) k) ∧
    Slot S (h + 1) fs f.par f.count ∧ PathOK S (h + 1) f.box fs

/-- Entries before the hole. -/
def pre : List (Frame D V) → List (Box D × V)
  | [] => []
  | f :: fs => pre fs ++ entriesL f.left

/-- Entries after the hole. -/
def post : List (Frame D V) → List (Box D × V)
  | [] => []
  | f :: fs => entriesL f.right ++ post fs

/-- `valid_pointer` of the root. -/
def rv : List (Frame D V) → Bool → Bool
  | [], v => v
  | f :: fs, _ => rv fs f.valid

/-- `count` of the root. -/
def rc : List (Frame D V) → Nat → Nat
  | [], c => c
  | f :: fs, _ => rc fs f.count

theorem entries_plug (f : Frame D V) (n : Node D V) :
    (f.plug n).entries = entriesL f.left ++ n.entries ++ entriesL f.right := by
  simp [Frame.plug, entries, entriesL_append, entriesL]

theorem entries_zip (fs : List (Frame D V)) : ∀ n : Node D V,
    (zip fs n).entries = pre fs ++ n.entries ++ post fs := by
  induction fs with
  | nil => intro n; simp [zip, pre, post]
  | cons f fs ih => intro n; simp [zip, ih, entries_plug, pre, post]

theorem valid_zip (fs : List (Frame D V)) : ∀ n : Node D V, (zip fs n).valid = rv fs n.valid := by
  induction fs with
  | nil => intro n; rfl
  | cons f fs ih => intro n; rw [zip, ih]; rfl

theorem count_zip (fs : List (Frame D V)) : ∀ n : Node D V, (zip fs n).count = rc fs n.count := by
  induction fs with
  | nil => intro n; rfl
  | cons f fs ih => intro n; rw [zip, ih]; rfl

theorem wfn_plug {S : Shape} {h : Nat} {f : Frame D V} {fs : List (Frame D V)} {n : Node D V} {b : Box D}
    (hn : WFN S h n) (hs : Slot S h (f :: fs) n.par n.count) (hp : PathOK S h b (f :: fs)) (hb : b = n.box) :
    WFN S (h + 1) (f.plug n) := by
  subst hb
  obtain ⟨h1, h2, h3, h4, h5, h6, h7⟩ := hp
  rw [Frame.plug, wfn_dir]
  refine ⟨by simp [h1], by simp; omega, by simpa using h3, ?_⟩
  intro k hk
  simp only [List.mem_append, List.mem_cons] at hk
  rcases hk with hk | rfl | hk
  · exact h4 k hk
  · exact ⟨hs.1, hs.2.1, hs.2.2, hn⟩
  · exact h5 k hk

theorem zip_wf {S : Shape} (fs : List (Frame D V)) : ∀ {h : Nat} {n : Node D V},
    WFN S h n → Slot S h fs n.par n.count → PathOK S h n.box fs → WFR S (h + fs.length) (zip fs n) := by
  induction fs with
  | nil =>
    intro h n hn hs _
    exact ⟨hn, hs.1, hs.2.1, hs.2.2⟩
  | cons f fs ih =>
    intro h n hn hs hp
    have h1 := wfn_plug hn hs hp rfl
    have h2 := ih h1 hp.2.2.2.2.2.1 hp.2.2.2.2.2.2
    simp only [zip, List.length_cons]
    rw [show h + (fs.length + 1) = h + 1 + fs.length by omega]
    exact h2

/-- Replacing the hole's node and packing the enclosing node. -/
theorem wfn_pack_plug {S : Shape} {h : Nat} {f : Frame D V} {fs : List (Frame D V)} {n : Node D V} {b : Box D}
    (hn : WFN S h n) (hs : Slot S h (f :: fs) n.par n.count) (hp : PathOK S h b (f :: fs)) :
    WFN S (h + 1) (f.plug n).pack.1 ∧
      ((f.plug n).pack.2 = false → (f.plug n).pack.1.box = f.box) := by
  obtain ⟨h1, h2, h3, h4, h5, h6, h7⟩ := hp
  constructor
  · simp only [Frame.plug, pack]
    rw [wfn_dir]
    refine ⟨by simp [h1], by simp; omega, ext_fits _ _, ?_⟩
    intro k hk
    simp only [List.mem_append, List.mem_cons] at hk
    rcases hk with hk | rfl | hk
    · exact h4 k hk
    · exact ⟨hs.1, hs.2.1, hs.2.2, hn⟩
    · exact h5 k hk
  · simp [Frame.plug, pack, box]

theorem packUp_ok {S : Shape} (fs : List (Frame D V)) : ∀ {h : Nat} {n : Node D V} {b : Box D},
    WFN S h n → Slot S h fs n.par n.count → PathOK S h b fs →
    ∃ t, packUp fs n = .ok t ∧ WFR S (h + fs.length) t ∧ t.entries = pre fs ++ n.entries ++ post fs ∧
      t.valid = rv fs n.valid ∧ t.count = rc fs n.count := by
  induction fs with
  | nil =>
    intro h n b hn hs _
    refine ⟨n, ?_, ⟨hn, hs.1, hs.2.1, hs.2.2⟩, by simp [pre, post], rfl, rfl⟩
    have := hs.1
    simp [packUp, this, zip]
  | cons f fs ih =>
    intro h n b hn hs hp
    obtain ⟨w, hch⟩ := wfn_pack_plug hn hs hp
    have hpar : n.par = .right := hs.1
    have hs' : Slot S (h + 1) fs (f.plug n).pack.1.par (f.plug n).pack.1.count := by
      rw [par_pack, count_pack]; exact hp.2.2.2.2.2.1
    have hp' := hp.2.2.2.2.2.2
    by_cases hc : (f.plug n).pack.2 = true
    · obtain ⟨t, e, wt, et, vt, ct⟩ := ih w hs' hp'
      refine ⟨t, by unfold packUp; simp [hpar, hc, e], ?_, ?_, ?_, ?_⟩
      · rw [List.length_cons, show h + (fs.length + 1) = h + 1 + fs.length by omega]; exact wt
      · rw [et, entries_pack, entries_plug]; simp [pre, post]
      · rw [vt, valid_pack]; rfl
      · rw [ct, count_pack]; rfl
    · have hc' : (f.plug n).pack.2 = false := by simpa using hc
      refine ⟨zip fs (f.plug n).pack.1, by unfold packUp; simp [hpar, hc'], ?_, ?_, ?_, ?_⟩
      · rw [List.length_cons, show h + (fs.length + 1) = h + 1 + fs.length by omega]
        refine zip_wf fs w hs' ?_
        rw [hch hc']; exact hp'
      · rw [entries_zip, entries_pack, entries_plug]; simp [pre, post]
      · rw [valid_zip, valid_pack]; rfl
      · rw [count_zip, count_pack]; rfl

theorem enlargeUp_ok {S : Shape} (fs : List (Frame D V)) : ∀ {h : Nat} {n : Node D V} {b bb : Box D},
    WFN S h n → Slot S h fs n.par n.count → PathOK S h b fs → enlarge b bb = n.box → enlarge n.box bb = n.box →
    enlarge bb n.box = n.box →
    ∃ t, enlargeUp bb fs n = .ok t ∧ WFR S (h + fs.length) t ∧ t.entries = pre fs ++ n.entries ++ post fs ∧
      t.valid = rv fs n.valid ∧ t.count = rc fs n.count := by
  induction fs with
  | nil =>
    intro h n b bb hn hs _ _ _ _
    refine ⟨n, ?_, ⟨hn, hs.1, hs.2.1, hs.2.2⟩, by simp [pre, post], rfl, rfl⟩
    have := hs.1
    simp [enlargeUp, this, zip]
  | cons f fs ih =>
    intro h n b bb hn hs hp hb1 hb2 hb3
    have hpar : n.par = .right := hs.1
    obtain ⟨h1, h2, h3, h4, h5, h6, h7⟩ := hp
    -- the enclosing node with its enlarged box
    have hbox : enlarge b n.box = n.box := by
      rw [← hb1]; exact enlarge_absorb b bb
    have hfit : Fits S.tight (enlarge f.box bb) (f.left.map Node.box ++ n.box :: f.right.map Node.box) := by
      have h0 := fits_grow h3 hbox
      have : enlarge f.box n.box = enlarge f.box bb := by
        have hc := h3.1 b (by simp)
        have e1 : ∀ i, n.box.s.get i = min (b.s.get i) (bb.s.get i) := fun i => by rw [← hb1, enlarge_s]
        have e2 : ∀ i, n.box.e.get i = max (b.e.get i) (bb.e.get i) := fun i => by rw [← hb1, enlarge_e]
        apply Box.ext' <;> intro i <;> have := hc i <;> have := e1 i <;> have := e2 i <;>
          simp only [enlarge_s, enlarge_e] <;> omega
      rw [this] at h0; exact h0
    have w : WFN S (h + 1) ((f.plug n).setBox (enlarge f.box bb)) := by
      simp only [Frame.plug, setBox]
      rw [wfn_dir]
      refine ⟨by simp [h1], by simp; omega, by simpa using hfit, ?_⟩
      intro k hk
      simp only [List.mem_append, List.mem_cons] at hk
      rcases hk with hk | rfl | hk
      · exact h4 k hk
      · exact ⟨hs.1, hs.2.1, hs.2.2, hn⟩
      · exact h5 k hk
    obtain ⟨t, e, wt, et, vt, ct⟩ := ih (bb := bb) w (by simpa [Frame.plug, setBox, Node.par, Node.count] using h6) h7
      (by simp [Frame.plug, setBox, Node.box])
      (by
        simp only [Frame.plug, setBox, Node.box]
        apply Box.ext' <;> intro i <;> simp only [enlarge_s, enlarge_e] <;> omega)
      (by
        simp only [Frame.plug, setBox, Node.box]
        apply Box.ext' <;> intro i <;> simp only [enlarge_s, enlarge_e] <;> omega)
    refine ⟨t, by unfold enlargeUp; simp [hpar, e], ?_, ?_, ?_, ?_⟩
    · rw [List.length_cons, show h + (fs.length + 1) = h + 1 + fs.length by omega]; exact wt
    · rw [et]
      have : ((f.plug n).setBox (enlarge f.box bb)).entries = (f.plug n).entries := by
        simp [Frame.plug]
      rw [this, entries_plug]; simp [pre, post]
    · rw [vt]; rfl
    · rw [ct]; rfl

theorem ext_covered {b : Box D} {l : List (Box D)} (hl : l ≠ []) (h : Covers b l) : Covers b [ext l] := by
  intro x hx i
  simp only [List.mem_singleton] at hx; subst hx
  obtain ⟨⟨y, hy, e1⟩, ⟨z, hz, e2⟩⟩ := (ext_bounding l).2.2 hl i
  have := h y hy i; have := h z hz i
  omega

/-- `shrink_tree_upward` from a node each face of whose box is touched by a child or by the box `bb`
that was removed. -/
theorem shrinkUp_ok {S : Shape} (fs : List (Frame D V)) : ∀ {h : Nat} {l b p c v} {ks : List (Node D V)}
    {bb : Box D},
    l = (h == 0) → c = ks.length → (∀ k ∈ ks, Kid S h k) →
    Covers b (ks.map Node.box) → (S.tight → Attained b (bb :: ks.map Node.box)) → (ks = [] → fs = []) →
    Slot S h fs p c → PathOK S h b fs →
    ∃ t, shrinkUp fs (.dir l b p c v ks) bb = .ok t ∧ WFR S (h + fs.length) t ∧
      t.entries = pre fs ++ entriesL ks ++ post fs ∧ t.valid = rv fs v ∧ t.count = rc fs c := by
  have key : ∀ (fs : List (Frame D V)) {h : Nat} {l b p c v} {ks : List (Node D V)} {bb : Box D},
    l = (h == 0) → c = ks.length → (∀ k ∈ ks, Kid S h k) →
    Covers b (ks.map Node.box) → (S.tight → Attained b (bb :: ks.map Node.box)) →
    Slot S h fs p c → PathOK S h b fs → b.atBoundary bb = false →
    ∃ t, shrinkUp fs (.dir l b p c v ks) bb = .ok t ∧ WFR S (h + fs.length) t ∧
      t.entries = pre fs ++ entriesL ks ++ post fs ∧ t.valid = rv fs v ∧ t.count = rc fs c := by
    intro fs h l b p c v ks bb hl hc hk hcov hatt hs hp hb
    refine ⟨zip fs (.dir l b p c v ks), ?_, ?_, ?_, ?_, ?_⟩
    · unfold shrinkUp; simp [Node.box, hb]
    · refine zip_wf fs ?_ hs hp
      rw [wfn_dir]
      refine ⟨hl, hc, ⟨hcov, fun ht => ⟨hcov, fun e => ?_, fun e i => ?_⟩⟩, hk⟩
      · have h0 := hatt ht
        rw [atBoundary_false] at hb
        rw [e] at h0
        apply Box.ext' <;> intro i <;> obtain ⟨⟨y, hy, e1⟩, ⟨z, hz, e2⟩⟩ := h0 i <;>
          simp only [List.mem_singleton] at hy hz <;> subst hy <;> have := hb i <;> omega
      · obtain ⟨⟨y, hy, e1⟩, ⟨z, hz, e2⟩⟩ := hatt ht i
        have hbi := (atBoundary_false _ _).1 hb i
        simp only [List.mem_cons] at hy hz
        refine ⟨⟨y, ?_, e1⟩, ⟨z, ?_, e2⟩⟩
        · rcases hy with rfl | hy
          · omega
          · exact hy
        · rcases hz with rfl | hz
          · omega
          · exact hz
    · rw [entries_zip]; simp [entries]
    · rw [valid_zip]; rfl
    · rw [count_zip]; rfl
  induction fs with
  | nil =>
    intro h l b p c v ks bb hl hc hk hcov hatt hne hs hp
    by_cases hb : b.atBoundary bb = false
    · exact key [] hl hc hk hcov hatt hs hp hb
    · have hb' : b.atBoundary bb = true := by simpa using hb
      have hpar : p = .null := hs.1
      subst hpar
      refine ⟨(Node.dir l b .null c v ks).pack.1, ?_, ⟨?_, rfl, hs.2.1, hs.2.2⟩, ?_, rfl, rfl⟩
      · unfold shrinkUp
        simp only [Node.box, hb', Node.par, zip]
        split <;> simp_all
      · simp only [pack]
        rw [wfn_dir]
        exact ⟨hl, hc, ext_fits _ _, hk⟩
      · simp [pre, post, entries]
  | cons f fs ih =>
    intro h l b p c v ks bb hl hc hk hcov hatt hne hs hp
    by_cases hb : b.atBoundary bb = false
    · exact key (f :: fs) hl hc hk hcov hatt hs hp hb
    · have hb' : b.atBoundary bb = true := by simpa using hb
      have hpar : p = .right := hs.1
      subst hpar
      have hks : ks ≠ [] := fun e => by simpa using hne e
      have hw : WFN S h (Node.dir l b .right c v ks).pack.1 := by
        simp only [pack]; rw [wfn_dir]; exact ⟨hl, hc, ext_fits _ _, hk⟩
      by_cases hch : (Node.dir l b .right c v ks).pack.2 = true
      · obtain ⟨h1, h2, h3, h4, h5, h6, h7⟩ := hp
        have hcv := ext_covered (by simpa using hks) hcov
        obtain ⟨t, e, wt, et, vt, ct⟩ := ih (h := h + 1) (l := f.leaf) (b := f.box) (p := f.par) (c := f.count)
          (v := f.valid) (ks := f.left ++ (Node.dir l b .right c v ks).pack.1 :: f.right) (bb := b)
          (by simp [h1]) (by simp; omega)
          (by
            intro k hk'
            simp only [List.mem_append, List.mem_cons] at hk'
            rcases hk' with hk' | rfl | hk'
            · exact h4 k hk'
            · exact ⟨rfl, hs.2.1, hs.2.2, hw⟩
            · exact h5 k hk')
          (by
            intro x hx i
            simp only [List.map_append, List.map_cons, List.mem_append, List.mem_cons] at hx
            rcases hx with hx | rfl | hx
            · exact h3.1 x (by simp only [List.mem_append]; exact Or.inl hx) i
            · have e1 := h3.1 b (by simp) i
              have e2 := hcv (ext (ks.map Node.box)) (by simp) i
              simp only [pack, Node.box]
              omega
            · exact h3.1 x (by simp only [List.mem_append, List.mem_cons]; exact Or.inr (Or.inr hx)) i)
          (by
            intro ht i
            obtain ⟨⟨y, hy, e1⟩, ⟨z, hz, e2⟩⟩ := (h3.2 ht).2.2 (by simp) i
            simp only [List.mem_append, List.mem_cons] at hy hz
            constructor
            · refine ⟨y, ?_, e1⟩
              simp only [List.map_append, List.map_cons, List.mem_append, List.mem_cons]
              rcases hy with hy | hy | hy
              · exact Or.inr (Or.inl hy)
              · exact Or.inl hy
              · exact Or.inr (Or.inr (Or.inr hy))
            · refine ⟨z, ?_, e2⟩
              simp only [List.map_append, List.map_cons, List.mem_append, List.mem_cons]
              rcases hz with hz | hz | hz
              · exact Or.inr (Or.inl hz)
              · exact Or.inl hz
              · exact Or.inr (Or.inr (Or.inr hz)))
          (by intro e; simp at e) h6 h7
        refine ⟨t, ?_, ?_, ?_, ?_, ?_⟩
        · unfold shrinkUp
          simp only [Node.box, hb', Node.par, hch, Frame.plug]
          simpa using e
        · rw [List.length_cons, show h + (fs.length + 1) = h + 1 + fs.length by omega]; exact wt
        · rw [et]; simp [pre, post, entriesL_append, entriesL, entries]
        · rw [vt]; rfl
        · rw [ct]; rfl
      · have hch' : (Node.dir l b .right c v ks).pack.2 = false := by simpa using hch
        refine ⟨zip (f :: fs) (Node.dir l b .right c v ks).pack.1, ?_, ?_, ?_, ?_, ?_⟩
        · unfold shrinkUp
          simp only [Node.box, hb', Node.par, hch']
          simp
        · refine zip_wf _ hw hs ?_
          have : (Node.dir l b .right c v ks).pack.1.box = b := by
            simpa [pack, Node.box] using hch'
          rw [this]; exact hp
        · rw [entries_zip]; simp [entries]
        · rw [valid_zip]; rfl
        · rw [count_zip]; rfl

/-! ### splitting -/

/-- The split may not reach a root whose `valid_pointer` is set. -/
def SplitSafe (hi : Nat) (fs : List (Frame D V)) (v : Bool) : Prop :=
  rv fs v = false ∨ ∃ f ∈ fs, f.count < hi

theorem group1_range (cfg : Cfg D V) (hcfg : cfg.Ok) (ks : List (Node D V)) (hk : ks.length = cfg.maxSize + 1) :
    cfg.minSize ≤ group1 cfg (pickDist cfg ks) ∧ group1 cfg (pickDist cfg ks) ≤ cfg.maxSize ∧
    cfg.minSize ≤ ks.length - group1 cfg (pickDist cfg ks) ∧
    ks.length - group1 cfg (pickDist cfg ks) ≤ cfg.maxSize ∧ group1 cfg (pickDist cfg ks) ≤ ks.length := by
  have := pickDist_range cfg ks
  have := hcfg.min_pos; have := hcfg.min_max
  unfold maxDist at *
  unfold group1
  omega

theorem map_resetKids_eq (ks : List (Node D V)) (h : ∀ k ∈ ks, k.par = .right) :
    ks.map resetKids = resetList ks := by
  rw [resetList_eq]
  apply List.map_congr_left
  intro k hk
  have h1 := h k hk
  cases hr : k.resetKids with
  | val b p v =>
    have : k.resetKids.par = p := by rw [hr]; rfl
    rw [par_resetKids, h1] at this; subst this; rfl
  | dir l b p c v ks =>
    have : k.resetKids.par = p := by rw [hr]; rfl
    rw [par_resetKids, h1] at this; subst this; rfl

theorem splitNode_ok {S : Shape} {cfg : Cfg D V} (hcfg : cfg.Ok) (hlo : S.lo ≤ cfg.minSize)
    (hhi : S.hi = cfg.maxSize) (hr : S.rlo ≤ 2) (fs : List (Frame D V)) :
    ∀ {h : Nat} {l b p c v} {ks : List (Node D V)} {bo : Box D},
    l = (h == 0) → ks.length = cfg.maxSize + 1 → (∀ k ∈ ks, Kid S h k) →
    (p = match fs with | [] => .null | _ :: _ => .right) →
    PathOK S h bo fs → SplitSafe S.hi fs v →
    ∃ t h', splitNode cfg fs (.dir l b p c v ks) = .ok t ∧ WFR S h' t ∧
      t.entries.Perm (pre fs ++ entriesL ks ++ post fs) ∧
      (t.valid = false ∧ h' = h + fs.length + 1 ∨
        h' = h + fs.length ∧ t.valid = rv fs v ∧ fs ≠ [] ∧ t.count ≤ rc fs c + 1) := by
  have hmin := hcfg.min_pos
  have hmm := hcfg.min_max
  induction fs with
  | nil =>
    intro h l b p c v ks bo hl hlen hk hpar hp hsafe
    simp only at hpar
    subst hpar
    have hv : v = false := by
      rcases hsafe with h0 | ⟨f, hf, _⟩
      · exact h0
      · simp at hf
    subst hv
    have hperm := sortBySplitDim_perm cfg hcfg.dims ks
    generalize hL : sortBySplitDim cfg ks = L at hperm
    have hLlen : L.length = cfg.maxSize + 1 := by rw [hperm.length_eq]; simpa using hlen
    have hloose : ∀ x ∈ L, Loose S h x := by
      intro x hx
      have := hperm.mem_iff.1 hx
      simp only [List.mem_map] at this
      obtain ⟨k0, hk0, rfl⟩ := this
      exact ⟨k0, hk k0 hk0, rfl⟩
    have hg := group1_range cfg hcfg L hLlen
    generalize hn1 : group1 cfg (pickDist cfg L) = n1 at hg
    obtain ⟨g1, g2, g3, g4, g5⟩ := hg
    let k1 := (L.take n1).map (setPar .root)
    let k2 := (L.drop n1).map (setPar .root)
    let G1 : Node D V := .dir l (ext (k1.map Node.box)) .right n1 false k1
    let G2 : Node D V := .dir l (ext (k2.map Node.box)) .right k2.length false k2
    let R : Node D V := .dir false (ext [G1.box, G2.box]) .null 2 false [G1.resetKids, G2.resetKids]
    have hk1 : k1.length = n1 := by simp [k1]; omega
    have hk2 : k2.length = L.length - n1 := by simp [k2]
    have w1 : WFN S h G1.resetKids := by
      simp only [G1, resetKids]
      simp only [Bool.false_eq_true, if_false]
      rw [wfn_dir]
      refine ⟨hl, by rw [length_resetList, hk1], by rw [boxes_resetList]; exact ext_fits _ _, ?_⟩
      exact kids_of_loose (fun x hx => hloose x (List.mem_of_mem_take hx)) _
    have w2 : WFN S h G2.resetKids := by
      simp only [G2, resetKids]
      simp only [Bool.false_eq_true, if_false]
      rw [wfn_dir]
      refine ⟨hl, by rw [length_resetList], by rw [boxes_resetList]; exact ext_fits _ _, ?_⟩
      exact kids_of_loose (fun x hx => hloose x (List.mem_of_mem_drop hx)) _
    refine ⟨R, h + 1, ?_, ⟨?_, rfl, ?_, fun _ => hr⟩, ?_, Or.inl ⟨rfl, rfl⟩⟩
    · simp only [splitNode, hL, hn1, pack]
      rfl
    · simp only [R]
      rw [wfn_dir]
      refine ⟨by simp, by simp, by simpa using ext_fits _ _, ?_⟩
      intro k hk'
      simp only [List.mem_cons, List.not_mem_nil, or_false] at hk'
      rcases hk' with rfl | rfl
      · refine ⟨by rw [par_resetKids]; rfl, ?_, ?_, w1⟩ <;> rw [count_resetKids] <;> show _ ≤ _ <;>
          simp only [G1, Node.count] <;> omega
      · refine ⟨by rw [par_resetKids]; rfl, ?_, ?_, w2⟩ <;> rw [count_resetKids] <;> show _ ≤ _ <;>
          simp only [G2, Node.count] <;> omega
    · simp only [R, Node.count]; omega
    · simp only [R, entries, entriesL, entries_resetKids, G1, G2, k1, k2, pre, post]
      rw [entriesL_map (entries_setPar _), entriesL_map (entries_setPar _)]
      simp only [List.append_nil, List.nil_append]
      rw [← entriesL_append, List.take_append_drop]
      refine (entriesL_perm hperm).trans ?_
      rw [entriesL_map entries_inval]
  | cons f fs ih =>
    intro h l b p c v ks bo hl hlen hk hpar hp hsafe
    simp only at hpar
    subst hpar
    have hperm := sortBySplitDim_perm cfg hcfg.dims ks
    generalize hL : sortBySplitDim cfg ks = L at hperm
    have hLlen : L.length = cfg.maxSize + 1 := by rw [hperm.length_eq]; simpa using hlen
    have hloose : ∀ x ∈ L, Loose S h x := by
      intro x hx
      have := hperm.mem_iff.1 hx
      simp only [List.mem_map] at this
      obtain ⟨k0, hk0, rfl⟩ := this
      exact ⟨k0, hk k0 hk0, rfl⟩
    have hg := group1_range cfg hcfg L hLlen
    generalize hn1 : group1 cfg (pickDist cfg L) = n1 at hg
    obtain ⟨g1, g2, g3, g4, g5⟩ := hg
    let k1 := L.take n1
    let k2 := (L.drop n1).map (setPar .stale)
    let G1 : Node D V := .dir l (ext (k1.map Node.box)) .right n1 v k1
    let G2 : Node D V := .dir l (ext (k2.map Node.box)) .right k2.length false k2
    let P : Node D V := .dir f.leaf (ext (f.left.map Node.box ++ G1.box :: f.right.map Node.box ++ [G2.box])) f.par
      (f.count + 1) f.valid (f.left ++ G1.reset :: f.right ++ [G2.resetKids])
    have hk1 : k1.length = n1 := by simp [k1]; omega
    have hk2 : k2.length = L.length - n1 := by simp [k2]
    have w1 : WFN S h G1.reset := by
      simp only [G1, reset, setValid, resetKids]
      simp only [Bool.false_eq_true, if_false]
      rw [wfn_dir]
      refine ⟨hl, by rw [length_resetList, hk1], by rw [boxes_resetList]; exact ext_fits _ _, ?_⟩
      exact kids_of_loose' (fun x hx => hloose x (List.mem_of_mem_take hx))
    have w2 : WFN S h G2.resetKids := by
      simp only [G2, resetKids]
      simp only [Bool.false_eq_true, if_false]
      rw [wfn_dir]
      refine ⟨hl, by rw [length_resetList], by rw [boxes_resetList]; exact ext_fits _ _, ?_⟩
      exact kids_of_loose (fun x hx => hloose x (List.mem_of_mem_drop hx)) _
    have kid1 : Kid S (h + 1) G1.reset := by
      refine ⟨by rw [reset, par_resetKids]; rfl, ?_, ?_, w1⟩ <;>
        rw [reset, count_resetKids] <;> simp only [G1, setValid, Node.count] <;> omega
    have kid2 : Kid S (h + 1) G2.resetKids := by
      refine ⟨by rw [par_resetKids]; rfl, ?_, ?_, w2⟩ <;> rw [count_resetKids] <;>
        simp only [G2, Node.count] <;> omega
    obtain ⟨h1, h2, h3, h4, h5, h6, h7⟩ := hp
    have hPk : ∀ k ∈ f.left ++ G1.reset :: f.right ++ [G2.resetKids], Kid S (h + 1) k := by
      intro k hk'
      simp only [List.mem_append, List.mem_cons, List.not_mem_nil, or_false] at hk'
      rcases hk' with (hk' | rfl | hk') | rfl
      · exact h4 k hk'
      · exact kid1
      · exact h5 k hk'
      · exact kid2
    have hPbox : (f.left ++ G1.reset :: f.right ++ [G2.resetKids]).map Node.box
        = f.left.map Node.box ++ G1.box :: f.right.map Node.box ++ [G2.box] := by
      simp [box_reset]
    have hPw : WFN S (h + 1) P := by
      simp only [P]
      rw [wfn_dir]
      refine ⟨by simp [h1], by simp; omega, ?_, hPk⟩
      rw [hPbox]; exact ext_fits _ _
    have hPe : P.entries.Perm (entriesL f.left ++ entriesL ks ++ entriesL f.right) := by
      simp only [P, entries, entriesL_append, entriesL, reset, entries_resetKids, entries_setValid, List.append_nil]
      have e1 : (G1.entries ++ G2.entries).Perm (entriesL ks) := by
        simp only [G1, G2, entries, k1, k2]
        rw [entriesL_map (entries_setPar _), ← entriesL_append, List.take_append_drop]
        refine (entriesL_perm hperm).trans ?_
        rw [entriesL_map entries_inval]
      have e2 : (entriesL f.left ++ (G1.entries ++ entriesL f.right) ++ G2.entries).Perm
          (entriesL f.left ++ (G1.entries ++ G2.entries) ++ entriesL f.right) := by
        simp only [List.append_assoc]
        exact List.Perm.append_left _ (List.Perm.append_left _ List.perm_append_comm)
      exact e2.trans (List.Perm.append_right _ (List.Perm.append_left _ e1))
    have hstep : splitNode cfg (f :: fs) (.dir l b .right c v ks) =
        if f.count + 1 > cfg.maxSize then splitNode cfg fs P
        else if decide (P.box ≠ f.box) = true then packUp fs P else .ok (zip fs P) := by
      simp only [splitNode, hL, hn1, pack]
      simp only [P, G1, G2, k1, k2, List.map_append, List.map_cons, List.map_nil, Node.box]
      rfl
    have hent : ∀ t : Node D V, t.entries.Perm (pre fs ++ P.entries ++ post fs) →
        t.entries.Perm (pre (f :: fs) ++ entriesL ks ++ post (f :: fs)) := by
      intro t ht
      refine ht.trans ?_
      simp only [pre, post]
      have := (List.Perm.append_left (pre fs) hPe).append_right (post fs)
      simpa [List.append_assoc] using this
    rw [hstep]
    by_cases hov : f.count + 1 > cfg.maxSize
    · rw [if_pos hov]
      have hfc : f.count ≤ S.hi := by
        cases fs with
        | nil => exact h6.2.1
        | cons => exact h6.2.2
      obtain ⟨t, h', e, wt, et, ht⟩ := ih (h := h + 1) (l := f.leaf) (b := P.box) (p := f.par) (c := f.count + 1)
        (v := f.valid) (ks := f.left ++ G1.reset :: f.right ++ [G2.resetKids]) (bo := f.box)
        (by simp [h1]) (by simp; omega) hPk
        (by cases fs with
          | nil => exact h6.1
          | cons => exact h6.1) h7
        (by
          rcases hsafe with h0 | ⟨g, hg, hgc⟩
          · exact Or.inl h0
          · simp only [List.mem_cons] at hg
            rcases hg with rfl | hg
            · omega
            · exact Or.inr ⟨g, hg, hgc⟩)
      refine ⟨t, h', e, wt, hent t et, ?_⟩
      rcases ht with ⟨h0, h1'⟩ | ⟨h0, h1', hne, h2'⟩
      · left; exact ⟨h0, by rw [h1', List.length_cons]; omega⟩
      · right
        refine ⟨by rw [h0, List.length_cons]; omega, h1', by simp, ?_⟩
        cases fs with
        | nil => exact absurd rfl hne
        | cons g gs => exact h2'
    · rw [if_neg hov]
      have hslot : Slot S (h + 1) fs P.par P.count := by
        cases fs with
        | nil => exact ⟨h6.1, by simp only [P, Node.count]; omega, fun _ => by
            have := h6.2.2 (by omega); simp only [P, Node.count]; omega⟩
        | cons => exact ⟨h6.1, by have := h6.2.1; simp only [P, Node.count]; omega,
            by simp only [P, Node.count]; omega⟩
      by_cases hch : decide (P.box ≠ f.box) = true
      · rw [if_pos hch]
        obtain ⟨t, e, wt, et, vt, ct⟩ := packUp_ok fs hPw hslot h7
        refine ⟨t, _, e, wt, hent t (by rw [et]), Or.inr ⟨by rw [List.length_cons]; omega, vt, by simp, ?_⟩⟩
        rw [ct]
        cases fs with
        | nil => simp [rc, P, Node.count]
        | cons g gs => simp [rc]
      · rw [if_neg hch]
        have hbox : P.box = f.box := by simpa using hch
        refine ⟨zip fs P, _, rfl, zip_wf fs hPw hslot (by rw [hbox]; exact h7), hent _ (by rw [entries_zip]),
          Or.inr ⟨by rw [List.length_cons]; omega, by rw [valid_zip]; rfl, by simp, ?_⟩⟩
        rw [count_zip]
        cases fs with
        | nil => simp [rc, P, Node.count]
        | cons g gs => simp [rc]

end Mdds.RTree
