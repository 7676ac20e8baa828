import Verif.Mtv.Ops2
import Verif.Mtv.Api
import Verif.Mtv.AppendLemmas

/-!
# multi_type_vector: effect of every public call

Each public call is shown to run without undefined behaviour or to throw without changing the
container, and its effect on the cells, on the destroyed values and on the events is given.
-/

namespace Mdds.Mtv

set_option linter.unusedSectionVars false

variable {α : Type} [DecidableEq α]

theorem cells_length {S : Option Ty → Prop} {s : St α} (h : WF S s) : (cells s.blocks).length = s.cur := by
  have key : ∀ {bs : List (Blk α)} {p}, Tile p bs → (cells bs).length = total bs := by
    intro bs
    induction bs with
    | nil => intro p _; simp
    | cons b l ih => intro p ht; obtain ⟨_, h2, h3⟩ := ht; simp [ih h3, cells_length_of_ok h2]
  rw [h.cur, key h.tile]

/-- The lookup of an existing position. -/
theorem lookup_in {S : Option Ty → Prop} {s : St α} (h : WF S s) (at_ : At) {pos : Nat} (hp : pos < s.cur) :
    ∃ pre b post a, s.blocks = pre ++ b :: post ∧ pos = total pre + a ∧ a < b.size ∧
      lookup at_ pos s = .ok (pre.length, s) ∧ pre.length ≠ s.blocks.length := by
  obtain ⟨pre, b, post, e, h1, h2⟩ := locate (bs := s.blocks) (row := pos) (by rw [← h.cur]; exact hp)
  refine ⟨pre, b, post, pos - total pre, e, by omega, by omega, ?_, by rw [e]; simp⟩
  cases at_ with
  | none => exact getBlockPosition_ok e h.tile h.cur h1 h2 (by omega)
  | some hint => exact getBlockPositionHint_ok hint e h.tile h.cur h1 h2

/-- The lookup of a position past the end; with a hint the container must not be empty. -/
theorem lookup_out {S : Option Ty → Prop} {s : St α} (h : WF S s) (at_ : At) {pos : Nat} (hp : s.cur ≤ pos)
    (hn : at_ = none ∨ 0 < s.cur) : lookup at_ pos s = .ok (s.blocks.length, s) := by
  cases at_ with
  | none => exact getBlockPosition_end hp
  | some hint =>
    refine getBlockPositionHint_end hint ?_ h.tile h.cur hp
    rintro e
    have := h.cur
    rw [e] at this
    simp at this hn
    omega

/-! ### Modifying calls -/

theorem set_in {S : Option Ty → Prop} (hS : ∀ t, S t → t ≠ none) {s : St α} (h : WF S s) (at_ : At)
    {pos : Nat} (hp : pos < s.cur) (ty : Ty) (x : α) :
    Runs (set at_ pos ty x s)
      (fun r s' => Eff S True True s s' (splice (cells s.blocks) pos 1 [some (ty, x)]) [(ty, x)] [] ∧ Holds s' r pos) := by
  obtain ⟨pre, b, post, a, e, rfl, ha, hl, hn⟩ := lookup_in h at_ hp
  simp only [set, bind_apply, hl, obind_ok, nBlocks_ap, if_neg hn]
  exact setImpl_ok hS h e ha ty x

theorem set_out {S : Option Ty → Prop} {s : St α} (h : WF S s) (at_ : At) {pos : Nat} (hp : s.cur ≤ pos)
    (hn : at_ = none ∨ 0 < s.cur) (ty : Ty) (x : α) : set at_ pos ty x s = .err .outOfRange s := by
  simp [set, bind_apply, lookup_out h at_ hp hn, nBlocks_ap, throw_]

/-- The new values go in front of a value of another type that starts a run, and do not
extend the previous run. -/
def FrontRange (L : List (Option (Ty × α))) (pos : Nat) (ty : Ty) : Prop :=
  tyAt L pos ≠ none ∧ tyAt L pos ≠ some ty ∧
    (pos = 0 ∨ (tyAt L (pos - 1) ≠ some ty ∧ tyAt L (pos - 1) ≠ tyAt L pos))

theorem insert_in {S : Option Ty → Prop} (hS : ∀ t, S t → t ≠ none) {s : St α} (h : WF S s) (at_ : At)
    {pos : Nat} (hp : pos < s.cur) (ty : Ty) (vs : List α) (hvs : vs ≠ []) :
    Runs (insert at_ pos ty vs s)
      (fun r s' => Eff S True ((∀ t, ¬ S t) ∧ ¬ FrontRange (cells s.blocks) pos ty) s s'
          (splice (cells s.blocks) pos 0 (vs.map (fun v => some (ty, v)))) (vs.map (fun v => (ty, v))) []
        ∧ Holds s' r pos) := by
  obtain ⟨pre, b, post, a, e, rfl, ha, hl, hn⟩ := lookup_in h at_ hp
  simp only [insert, bind_apply, hl, obind_ok, nBlocks_ap, if_neg hn]
  refine Runs.imp (insertCellsImpl_ok hS h e ha ty vs hvs) (fun r s' hh => ⟨hh.1.mono id ?_, hh.2⟩)
  rintro ⟨hc, hf⟩
  obtain ⟨ok, hpl, hp⟩ := ok_of_split h e
  have hL : cells s.blocks = cells pre ++ (b.cells ++ cells post) := by rw [e]; simp
  have hty : tyAt (cells s.blocks) (total pre + a) = b.ty := by
    rw [hL]; exact tyAt_block ok (by omega) (by omega)
  by_contra hno
  simp only [not_or, not_exists, not_and] at hno
  obtain ⟨n1, n2, n3, n4⟩ := hno
  obtain rfl : a = 0 := by omega
  apply hf
  refine ⟨by rw [hty]; exact n1, by rw [hty]; exact n2, ?_⟩
  rcases snoc_cases pre with rfl | ⟨q, c, rfl⟩
  · left; simp
  · right
    have ok2 := ok_of_split (pre := q) (b := c) (post := b :: post) h (by rw [e]; simp)
    have hL2 : cells s.blocks = cells q ++ (c.cells ++ cells (b :: post)) := by rw [e]; simp
    have hsz : 0 < c.size := ok2.1.1
    have ht2 : tyAt (cells s.blocks) (total (q ++ [c]) + 0 - 1) = c.ty := by
      rw [hL2]; exact tyAt_block ok2.1 (by rw [ok2.2.1]; simp; omega) (by rw [ok2.2.1]; simp; omega)
    rw [ht2, hty]
    refine ⟨n4 c (by simp), fun hcb => ?_⟩
    have hsep := h.sep
    rw [e] at hsep
    unfold Sep at hsep
    rw [List.append_assoc, List.map_append] at hsep
    have := (List.isChain_append.1 hsep).2.1
    rw [List.singleton_append, List.map_cons, List.map_cons] at this
    exact hc _ (by simpa [hcb] using List.isChain_cons_cons.1 this |>.1)

theorem insert_nil {S : Option Ty → Prop} {s : St α} (h : WF S s) (at_ : At) {pos : Nat} (hp : pos < s.cur) (ty : Ty) :
    insert at_ pos ty [] s = .ok (s.blocks.length, s) := by
  obtain ⟨pre, b, post, a, e, rfl, ha, hl, hn⟩ := lookup_in h at_ hp
  simp only [insert, bind_apply, hl, obind_ok, nBlocks_ap, if_neg hn, insertCellsImpl]
  simp [getB_ap, e, M.pure, mev]

theorem insert_out {S : Option Ty → Prop} {s : St α} (h : WF S s) (at_ : At) {pos : Nat} (hp : s.cur ≤ pos)
    (hn : at_ = none ∨ 0 < s.cur) (ty : Ty) (vs : List α) : insert at_ pos ty vs s = .err .outOfRange s := by
  simp [insert, bind_apply, lookup_out h at_ hp hn, nBlocks_ap, throw_]

theorem insertEmpty_in {S : Option Ty → Prop} (hS : ∀ t, S t → t ≠ none) {s : St α} (h : WF S s) (at_ : At)
    {pos : Nat} (hp : pos < s.cur) (n : Nat) (hn0 : 0 < n) :
    Runs (insertEmpty at_ pos n s)
      (fun r s' => Eff S True True s s' (splice (cells s.blocks) pos 0 (List.replicate n none)) [] [] ∧ Holds s' r pos) := by
  obtain ⟨pre, b, post, a, e, rfl, ha, hl, hn⟩ := lookup_in h at_ hp
  have h0 : ¬ n = 0 := by omega
  simp only [insertEmpty, bind_apply, hl, obind_ok, nBlocks_ap, if_neg hn, if_neg h0]
  exact insertEmptyImpl_ok hS h e ha n hn0

theorem insertEmpty_nil (at_ : At) (pos : Nat) (s : St α) :
    insertEmpty at_ pos 0 s = .ok (s.blocks.length, s) := by
  simp [insertEmpty, bind_apply, nBlocks_ap, M.pure]

theorem insertEmpty_out {S : Option Ty → Prop} {s : St α} (h : WF S s) (at_ : At) {pos : Nat} (hp : s.cur ≤ pos)
    (hn : at_ = none ∨ 0 < s.cur) (n : Nat) (hn0 : 0 < n) : insertEmpty at_ pos n s = .err .outOfRange s := by
  have h0 : ¬ n = 0 := by omega
  simp [insertEmpty, bind_apply, lookup_out h at_ hp hn, nBlocks_ap, throw_, h0]

/-- Splitting the store at the two ends of a range. -/
theorem second {S : Option Ty → Prop} {s : St α} (h : WF S s) {pre post : List (Blk α)} {b : Blk α}
    (e : s.blocks = pre ++ b :: post) {a m : Nat} (ha : a < b.size) (hq : total pre + a + m < s.cur) :
    (a + m < b.size ∧ getBlockPosition (total pre + a + m) pre.length s = .ok (pre.length, s)) ∨
    ∃ mid b2 post' d, s.blocks = pre ++ b :: (mid ++ b2 :: post') ∧ a + m = b.size + (total mid + d) ∧ d < b2.size ∧
      getBlockPosition (total pre + a + m) pre.length s = .ok (pre.length + (mid.length + 1), s) := by
  rcases split_end (pre := pre) (b := b) (post := post) (q := total pre + a + m) (by rw [← e, ← h.cur]; exact hq) (by omega) with
    ⟨d, hd, hlt⟩ | ⟨mid, b2, post', d, rfl, hd, hlt⟩
  · left
    exact ⟨by omega, getBlockPosition_ok e h.tile h.cur (by omega) (by omega) (by omega)⟩
  · right
    refine ⟨mid, b2, post', d, e, by omega, hlt, ?_⟩
    have := getBlockPosition_ok (pre := pre ++ b :: mid) (b := b2) (post := post') (row := total pre + a + m) (start := pre.length)
      (s := s) (by rw [e]; simp) h.tile h.cur (by simp; omega) (by simp; omega) (by simp)
    simpa using this

theorem setRange_nil (at_ : At) (pos : Nat) (ty : Ty) (s : St α) :
    setRange at_ pos ty [] s = .ok (s.blocks.length, s) := by
  simp [setRange, bind_apply, nBlocks_ap, curSize_ap, M.pure]

theorem setRange_out (at_ : At) {pos : Nat} (ty : Ty) (vs : List α) (hv : vs ≠ []) {s : St α} (hp : s.cur < pos + vs.length) :
    setRange at_ pos ty vs s = .err .outOfRange s := by
  have h1 : ¬ vs.length = 0 := by simpa using hv
  have h2 : s.cur ≤ pos + vs.length - 1 := by omega
  simp only [setRange, bind_apply, nBlocks_ap, curSize_ap, obind_ok, if_neg h1, if_pos h2, throw_]

theorem setRange_in {S : Option Ty → Prop} (hS : ∀ t, S t → t ≠ none) {s : St α} (h : WF S s) (at_ : At)
    {pos : Nat} (ty : Ty) (vs : List α) (hv : vs ≠ []) (hp : pos + vs.length ≤ s.cur)
    (h7 : S (some ty) ∨ ¬ GapRange (cells s.blocks) pos vs.length ty) :
    Runs (setRange at_ pos ty vs s)
      (fun r s' => Eff S (¬ LeakRange (cells s.blocks) pos vs.length ty) (¬ InnerRange (cells s.blocks) pos vs.length ty) s s'
          (splice (cells s.blocks) pos vs.length (vs.map (fun v => some (ty, v)))) (vs.map (fun v => (ty, v))) []
        ∧ Holds s' r pos) := by
  rcases vs with _ | ⟨v, vs⟩
  · simp at hv
  obtain ⟨pre, b, post, a, e, rfl, ha, hl, hn⟩ := lookup_in h at_ (pos := pos) (by simp at hp; omega)
  have h2 : ¬ (s.cur ≤ total pre + a + (v :: vs).length - 1) := by simp at hp ⊢; omega
  have h3 : ¬ (v :: vs).length = 0 := by simp
  have h4 : ¬ (at_ = none ∧ pre.length = s.blocks.length) := fun hh => hn hh.2
  have e5 : total pre + a + (v :: vs).length - 1 = total pre + a + vs.length := by simp
  simp only [setRange, bind_apply, hl, obind_ok, nBlocks_ap, curSize_ap, if_neg h2, if_neg h3, if_neg h4, setCellsImpl]
  simp only [e5]
  rcases second h e ha (m := vs.length) (by simp at hp; omega) with ⟨hlt, hg⟩ | ⟨mid, b2, post', d, e', hd, hlt, hg⟩
  · simp only [hg, obind_ok, if_neg hn, if_true]
    refine Runs.imp (setCellsSingle_ok hS h e ty v vs (by omega)) (fun r s' hh => ⟨hh.1.mono (fun _ => trivial) id, hh.2⟩)
  · have h6 : ¬ (pre.length + (mid.length + 1) = s.blocks.length) := by rw [e']; simp
    have h7' : ¬ (pre.length = pre.length + (mid.length + 1)) := by omega
    simp only [hg, obind_ok, if_neg h6, if_neg h7']
    have := setCellsMulti_ok hS h e' ty (v :: vs) ha hlt (by simp; omega) h7
    have e8 : total pre + a + vs.length = total pre + (b.size + (total mid + d)) := by omega
    rw [e8]
    exact Runs.imp this (fun r s' hh => ⟨hh.1.mono id (fun _ => trivial), hh.2⟩)

theorem setEmptyImpl_in {S : Option Ty → Prop} (hS : ∀ t, S t → t ≠ none) {s : St α} (h : WF S s)
    {pre post : List (Blk α)} {b : Blk α} (e : s.blocks = pre ++ b :: post) {a m : Nat} (ha : a < b.size)
    (hq : total pre + a + m < s.cur) (ow : Bool) :
    Runs (setEmptyImpl (total pre + a) (total pre + a + m) pre.length ow s)
      (fun r s' => Eff S True True s s'
          (splice (cells s.blocks) (total pre + a) (m + 1) (List.replicate (m + 1) none)) []
          (if ow then [] else valsIn (cells s.blocks) (total pre + a) (m + 1))
        ∧ Holds s' r (total pre + a)) := by
  have hn : ¬ (pre.length = s.blocks.length) := by rw [e]; simp
  have h0 : ¬ (total pre + a + m < total pre + a) := by omega
  simp only [setEmptyImpl, bind_apply, if_neg h0]
  rcases second h e ha hq with ⟨hlt, hg⟩ | ⟨mid, b2, post', d, e', hd, hlt, hg⟩
  · simp only [hg, obind_ok, nBlocks_ap, if_neg hn, if_true]
    exact setEmptySingle_ok hS h e hlt ow
  · have h6 : ¬ (pre.length + (mid.length + 1) = s.blocks.length) := by rw [e']; simp
    have h7' : ¬ (pre.length = pre.length + (mid.length + 1)) := by omega
    simp only [hg, obind_ok, nBlocks_ap, if_neg h6, if_neg h7']
    have e8 : total pre + a + m = total pre + (b.size + (total mid + d)) := by omega
    rw [e8]
    exact setEmptyMulti_ok hS h e' ha hlt ow (by omega)

theorem setEmptyImpl_out {s : St α} {p q i : Nat} (ow : Bool) (hq : q < p ∨ s.cur ≤ q) :
    setEmptyImpl p q i ow s = .err .outOfRange s := by
  by_cases h : q < p
  · simp only [setEmptyImpl, if_pos h, throw_]
  · simp only [setEmptyImpl, if_neg h, bind_apply]
    rw [getBlockPosition_end (by omega)]
    simp [throw_, nBlocks_ap]

theorem setEmpty_in {S : Option Ty → Prop} (hS : ∀ t, S t → t ≠ none) {s : St α} (h : WF S s) (at_ : At)
    {p q : Nat} (hpq : p ≤ q) (hq : q < s.cur) :
    Runs (setEmpty at_ p q s)
      (fun r s' => Eff S True True s s'
          (splice (cells s.blocks) p (q - p + 1) (List.replicate (q - p + 1) none)) [] [] ∧ Holds s' r p) := by
  obtain ⟨pre, b, post, a, e, rfl, ha, hl, hn⟩ := lookup_in h at_ (pos := p) (by omega)
  obtain ⟨m, rfl⟩ : ∃ m, q = total pre + a + m := ⟨q - (total pre + a), by omega⟩
  simp only [setEmpty, bind_apply, hl, obind_ok, nBlocks_ap, if_neg hn]
  have := setEmptyImpl_in hS h e ha hq true
  simpa using this

theorem releaseRange_in {S : Option Ty → Prop} (hS : ∀ t, S t → t ≠ none) {s : St α} (h : WF S s) (at_ : At)
    {p q : Nat} (hpq : p ≤ q) (hq : q < s.cur) :
    Runs (releaseRange at_ p q s)
      (fun r s' => Eff S True True s s'
          (splice (cells s.blocks) p (q - p + 1) (List.replicate (q - p + 1) none)) []
          (valsIn (cells s.blocks) p (q - p + 1)) ∧ Holds s' r p) := by
  obtain ⟨pre, b, post, a, e, rfl, ha, hl, hn⟩ := lookup_in h at_ (pos := p) (by omega)
  obtain ⟨m, rfl⟩ : ∃ m, q = total pre + a + m := ⟨q - (total pre + a), by omega⟩
  simp only [releaseRange, bind_apply, hl, obind_ok, nBlocks_ap, if_neg hn]
  have := setEmptyImpl_in hS h e ha hq false
  simpa using this

theorem setEmpty_out {S : Option Ty → Prop} {s : St α} (h : WF S s) (at_ : At) {p q : Nat}
    (hq : q < p ∨ s.cur ≤ q) (hn : at_ = none ∨ 0 < s.cur) : setEmpty at_ p q s = .err .outOfRange s := by
  by_cases hp : p < s.cur
  · obtain ⟨pre, b, post, a, e, rfl, ha, hl, hn⟩ := lookup_in h at_ hp
    simp only [setEmpty, bind_apply, hl, obind_ok, nBlocks_ap, if_neg hn]
    exact setEmptyImpl_out true hq
  · simp [setEmpty, bind_apply, lookup_out h at_ (Nat.not_lt.1 hp) hn, nBlocks_ap, throw_]

theorem releaseRange_out {S : Option Ty → Prop} {s : St α} (h : WF S s) (at_ : At) {p q : Nat}
    (hq : q < p ∨ s.cur ≤ q) (hn : at_ = none ∨ 0 < s.cur) : releaseRange at_ p q s = .err .outOfRange s := by
  by_cases hp : p < s.cur
  · obtain ⟨pre, b, post, a, e, rfl, ha, hl, hn⟩ := lookup_in h at_ hp
    simp only [releaseRange, bind_apply, hl, obind_ok, nBlocks_ap, if_neg hn]
    exact setEmptyImpl_out false hq
  · simp [releaseRange, bind_apply, lookup_out h at_ (Nat.not_lt.1 hp) hn, nBlocks_ap, throw_]

theorem erase_in {S : Option Ty → Prop} {s : St α} (h : WF S s) {p q : Nat} (hpq : p ≤ q) (hq : q < s.cur) :
    Runs (erase p q s)
      (fun _ s' => Eff S True True s s' (splice (cells s.blocks) p (q - p + 1) []) [] []) := by
  obtain ⟨pre, b, post, a, e, rfl, ha, hl, hn⟩ := lookup_in h none (pos := p) (by omega)
  obtain ⟨m, rfl⟩ : ∃ m, q = total pre + a + m := ⟨q - (total pre + a), by omega⟩
  have hl' : getBlockPosition (total pre + a) 0 s = .ok (pre.length, s) := hl
  have h0 : ¬ (total pre + a + m < total pre + a) := by omega
  have em : total pre + a + m - (total pre + a) + 1 = m + 1 := by omega
  rw [em]
  simp only [erase, if_neg h0, eraseImpl, bind_apply, hl', obind_ok, nBlocks_ap, if_neg hn]
  rcases second h e ha hq with ⟨hlt, hg⟩ | ⟨mid, b2, post', d, e', hd, hlt, hg⟩
  · simp only [hg, obind_ok, if_neg hn, if_true]
    exact eraseSingle_ok h e hlt
  · have h6 : ¬ (pre.length + (mid.length + 1) = s.blocks.length) := by rw [e']; simp
    have h7' : ¬ (pre.length = pre.length + (mid.length + 1)) := by omega
    simp only [hg, obind_ok, if_neg h6, if_neg h7']
    have e8 : total pre + a + m = total pre + (b.size + (total mid + d)) := by omega
    rw [e8]
    exact eraseMulti_ok h e' ha hlt (by omega)

theorem erase_out {S : Option Ty → Prop} {s : St α} (h : WF S s) {p q : Nat} (hq : q < p ∨ s.cur ≤ q) :
    erase p q s = .err .outOfRange s := by
  by_cases h0 : q < p
  · simp only [erase, if_pos h0, throw_]
  · simp only [erase, if_neg h0, eraseImpl, bind_apply]
    by_cases hp : p < s.cur
    · obtain ⟨pre, b, post, a, e, rfl, ha, hl, hn⟩ := lookup_in h none hp
      have hl' : getBlockPosition (total pre + a) 0 s = .ok (pre.length, s) := hl
      simp only [hl', obind_ok, nBlocks_ap, if_neg hn, bind_apply]
      rw [getBlockPosition_end (by omega)]
      simp [throw_]
    · rw [getBlockPosition_end (by omega)]
      simp [throw_, nBlocks_ap]

/-- The cut of `resize` falls inside a run of a managed type. -/
def CutsManaged (L : List (Option (Ty × α))) (n : Nat) : Prop :=
  0 < n ∧ ∃ t, t.managed = true ∧ tyAt L n = some t ∧ tyAt L (n - 1) = some t

theorem resize_eff {S : Option Ty → Prop} (hS : ∀ t, S t → t ≠ none) {s : St α} (h : WF S s) (n : Nat)
    (hm : ¬ CutsManaged (cells s.blocks) n) :
    Runs (resize n s)
      (fun _ s' => Eff S True True s s'
        ((cells s.blocks).take n ++ List.replicate (n - s.cur) none) [] []) := by
  have hlen := cells_length h
  simp only [resize, bind_apply, curSize_ap, obind_ok]
  by_cases h1 : n = s.cur
  · rw [if_pos h1]
    refine ⟨_, _, rfl, h.tile, h.cur, h.sep, ?_, ?_, ?_, ?_⟩
    · rw [List.take_of_length_le (by omega)]; simp [h1]
    · intro _ z _; simp
    · omega
    · intro _ i; omega
  rw [if_neg h1]
  by_cases h2 : n = 0
  · rw [if_pos h2]
    have := clear_eff S s.blocks s.cur s.freed s.evs s.next s rfl h
    refine Runs.imp this (fun r s' hh => hh.cast (by simp [h2]))
  rw [if_neg h2]
  by_cases h3 : n > s.cur
  · simp only [if_pos h3, bind_apply]
    refine Runs.bind (appendEmpty_eff S hS (n - s.cur) (by omega) s.blocks s.cur s.freed s.evs s.next s rfl h) ?_
    intro r s' hh
    exact ⟨_, _, rfl, hh.1.cast (by rw [List.take_of_length_le (by omega)])⟩
  rw [if_neg h3]
  have hz : n - s.cur = 0 := by omega
  obtain ⟨pre, b, post, a, e, hpa, ha, hl, hn⟩ := lookup_in h none (pos := n - 1) (by omega)
  have hl' : getBlockPosition (n - 1) 0 s = .ok (pre.length, s) := hl
  obtain rfl : n = total pre + (a + 1) := by omega
  obtain ⟨ok, hpl, hp⟩ := ok_of_split h e
  have hcl := cells_length_of_ok ok
  have hL : cells s.blocks = cells pre ++ (b.cells ++ cells post) := by rw [e]; simp
  simp only [hl', bind_apply, obind_ok, nBlocks_ap, if_neg hn]
  have hlen2 : s.blocks.length = pre.length + (post.length + 1) := by rw [e]; simp
  have heq : ∀ s : St α, (resizeCut (total pre + (a + 1)) pre.length s).bind (fun p =>
      (deleteElementBlocks (pre.length + 1) (pre.length + (post.length + 1) - (pre.length + 1)) p.2).bind fun p =>
        (delB (pre.length + 1) (pre.length + (post.length + 1) - (pre.length + 1)) p.2).bind fun p =>
          setCurSize (total pre + (a + 1)) p.2) = resizeAt (total pre + (a + 1)) pre.length (pre.length + (post.length + 1)) s :=
    fun s => rfl
  rw [hlen2, heq, hz]
  have fin : ∀ P R, cells s.blocks = P ++ R → P.length = total pre + (a + 1) →
      (cells s.blocks).take (total pre + (a + 1)) ++ List.replicate 0 none = P := by
    intro P R e1 e2; rw [e1, ← e2]; simp
  rcases s with ⟨bs, c, fr, ev, nx⟩
  simp only at e
  by_cases h4 : b.size = a + 1
  · rcases b with ⟨p, sz, d⟩
    simp only at h4
    subst h4
    have := resizeAt_all S pre post p a d c fr ev nx _ (by rw [e]) h
    refine Runs.imp this (fun r s' hh => hh.cast (fin _ (cells post) (by rw [hL]; simp) ?_).symm)
    simp at hcl ⊢; omega
  · rcases tail0_cases b a ok ha with ⟨p2, k2, rfl⟩ | ⟨p2, i2, t2, y2, vd, vb, rfl, rfl⟩
    · have h5 : 0 < k2 := by simp at h4; omega
      have := resizeAt_none S pre post p2 (a + 1) k2 c fr ev nx _ (by omega) h5 (by rw [e]) h
      refine Runs.imp this (fun r s' hh => hh.cast (fin _ (List.replicate k2 none ++ cells post) ?_ ?_).symm)
      · rw [hL]; simp [List.replicate_add, -List.replicate_append_replicate]
      · simp; omega
    · have h5 : vb ≠ [] := by rintro rfl; simp at h4
      have h6 : t2.managed = false := by
        by_contra hman
        refine hm ⟨by omega, t2, by simpa using hman, ?_, ?_⟩
        · rw [hL]; exact tyAt_block ok (by omega) (by
            have : 0 < vb.length := List.length_pos_iff.2 h5
            simp; omega)
        · rw [hL]; exact tyAt_block ok (by omega) (by simp; omega)
      have := resizeAt_some S pre post p2 i2 t2 (y2 :: vd) vb c fr ev nx _ (by simp) h5 h6 (by rw [e]; simp) h
      refine Runs.imp this (fun r s' hh => hh.cast (fin _ (vb.map (fun v => some (t2, v)) ++ cells post) ?_ ?_).symm)
      · rw [hL]; simp
      · simp; omega

/-! ### release -/

theorem getValue_ok (d : EB α) (off : Nat) (v : α) (hv : d.vals[off]? = some v) (s : St α) :
    getValue d off d.ty s = .ok (v, s) := by
  simp [getValue, hv, M.pure]

theorem cell_at {S : Option Ty → Prop} {s : St α} (h : WF S s) {pre post : List (Blk α)} {b : Blk α}
    (e : s.blocks = pre ++ b :: post) {a : Nat} (ha : a < b.size) :
    (b.data = none ∧ (cells s.blocks)[total pre + a]? = some none) ∨
      ∃ d v, b.data = some d ∧ d.vals[a]? = some v ∧ (cells s.blocks)[total pre + a]? = some (some (d.ty, v)) := by
  obtain ⟨ok, hpl, hp⟩ := ok_of_split h e
  have hcl := cells_length_of_ok ok
  have hL : (cells s.blocks)[total pre + a]? = b.cells[a]? := by
    rw [e]; simp only [cells_append, cells_cons]
    rw [List.getElem?_append_right (by omega), List.getElem?_append_left (by omega)]
    congr 1; omega
  rw [hL]
  rcases b with ⟨p, sz, _ | d⟩
  · left; simp at ha ⊢; simp [List.getElem?_replicate, ha]
  · right
    have hsz : d.vals.length = sz := by simpa using hcl
    have : a < d.vals.length := by simp at ha; omega
    exact ⟨d, d.vals[a], rfl, List.getElem?_eq_getElem this, by simp [this]⟩

theorem release_in {S : Option Ty → Prop} (hS : ∀ t, S t → t ≠ none) {s : St α} (h : WF S s) (at_ : At)
    {pos : Nat} (hp : pos < s.cur) (ty : Ty) (ht : tyAt (cells s.blocks) pos = none ∨ tyAt (cells s.blocks) pos = some ty) :
    Runs (release at_ pos ty s)
      (fun r s' => Eff S True True s s' (splice (cells s.blocks) pos 1 [none]) [] (valsIn (cells s.blocks) pos 1)
        ∧ Holds s' r.2 pos ∧ (cells s.blocks)[pos]? = some (r.1.map fun v => (ty, v))) := by
  obtain ⟨pre, b, post, a, e, rfl, ha, hl, hn⟩ := lookup_in h at_ hp
  have hb : s.blocks[pre.length]? = some b := by rw [e]; simp
  obtain ⟨ok, hpl, hpos⟩ := ok_of_split h e
  simp only [release, bind_apply, hl, obind_ok, nBlocks_ap, if_neg hn, releaseImpl, getB_ap, hb]
  rcases cell_at h e ha with ⟨hd, hc⟩ | ⟨d, v, hd, hv, hc⟩
  · rw [hd]
    refine ⟨_, _, rfl, ?_, ⟨b, hb, by omega, by omega⟩, by simpa using hc⟩
    have hlt : total pre + a < (cells s.blocks).length := by rw [cells_length h]; exact hp
    have hv0 : valsIn (cells s.blocks) (total pre + a) 1 = [] := by
      rw [List.getElem?_eq_getElem hlt] at hc
      simp only [valsIn]
      rw [List.drop_eq_getElem_cons hlt]
      simp at hc
      simp [hc]
    rw [hv0]
    refine ⟨h.tile, h.cur, h.sep, ?_, ?_, ?_, ?_⟩
    · rw [List.getElem?_eq_getElem hlt] at hc
      simp at hc
      simp only [splice]
      have h2 := List.drop_eq_getElem_cons hlt
      rw [hc] at h2
      rw [List.singleton_append, ← h2, List.take_append_drop]
    · intro _ z _; simp
    · omega
    · intro _ i; omega
  · have hty : d.ty = ty := by
      have h1 : tyAt (cells s.blocks) (total pre + a) = some d.ty := by simp [tyAt, hc]
      rw [h1] at ht
      simpa using ht
    subst hty
    have e1 : total pre + a - b.pos = a := by omega
    simp only [hd, bind_apply, e1, getValue_ok d a v hv, obind_ok]
    have := setEmptySingle_ok hS h e (a := a) (m := 0) (by omega) false
    refine Runs.bind this ?_
    intro r s' hh
    refine ⟨_, _, rfl, ?_, hh.2, by simpa using hc⟩
    simpa using hh.1

theorem release_out {S : Option Ty → Prop} {s : St α} (h : WF S s) (at_ : At) {pos : Nat} (hp : s.cur ≤ pos)
    (hn : at_ = none ∨ 0 < s.cur) (ty : Ty) : release at_ pos ty s = .err .outOfRange s := by
  simp [release, bind_apply, lookup_out h at_ hp hn, nBlocks_ap, throw_]

end Mdds.Mtv
