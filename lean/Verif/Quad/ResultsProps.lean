import Verif.Quad.HeapProps2
import Verif.Quad.ResultsLemmas
import Verif.Quad.Props
/-!
C67: search results.  C68: node access.

A program in the sense of `HeapWorld.lean` runs, a region of a container is searched, the program goes on, and the result is
walked through.  `semRun` (`HeapWorld.lean`) is what the containers hold; C46 says which points `searchRegion` gives.
-/
namespace Mdds.Quad

variable {V : Type}
open AT

/-- Only the position of a point. -/
def Pt.xy (p : Pt V) : Int × Int := (p.x, p.y)

theorem follow_uses {U : Nat → Bool} {c : Call V} {i j : Nat} (hc : c.fits U = true) (hi : U i = true) (hf : c.follow i = some j) : c.uses U j = true := by
  cases c with
  | swap a b =>
    cases hf
    simp only [Call.fits, Bool.and_eq_true] at hc
    simp only [Call.uses, swapped]
    split
    · exact hc.1
    · split
      · exact hc.2
      · exact hi
  | remove k x y => have := (follow_not hf).1; subst this; exact hi
  | clear k => have := (follow_not hf).1; subst this; exact hi
  | assign k x => have := (follow_not hf).1; subst this; exact hi
  | destroy k =>
    obtain ⟨rfl, e⟩ := follow_not hf
    simp only [Call.uses]
    rw [setVar_ne _ _ (Ne.symm e)]; exact hi
  | insert k x y d => cases hf; exact hi
  | make k => cases hf; simp only [Call.uses, setVar]; split <;> first | rfl | exact hi
  | copy k x => cases hf; simp only [Call.uses, setVar]; split <;> first | rfl | exact hi

theorem followAll_uses {U : Nat → Bool} {l : List (Call V)} {i j : Nat} (hl : fitsAll U l = true) (hi : U i = true) (hf : followAll i l = some j) :
    usesAll U l j = true := by
  induction l generalizing U i with
  | nil => cases hf; exact hi
  | cons c l ih =>
    simp only [fitsAll, Bool.and_eq_true] at hl
    simp only [followAll] at hf
    obtain ⟨k, e1, e2⟩ := Option.bind_eq_some_iff.1 hf
    exact ih hl.2 (follow_uses hl.1 hi e1) e2

theorem found_reads {l1 l2 : List (Call V)} (hl : fitsAll (fun _ => false) (l1 ++ l2) = true) {w1 w2 : World V} (h1 : World.run World.start l1 = .ok w1)
    (h2 : World.run w1 l2 = .ok w2) {i j : Nat} (hij : followAll i l2 = some j) {r : Option Nat} (hi : w1.var i = some r) (x1 y1 x2 y2 : Int) :
    ∃ S1 S2 t1 t2 ns ps, semRun (fun _ => none) l1 = .ok S1 ∧ S1 i = some t1 ∧ semRun S1 l2 = .ok S2 ∧ S2 j = some t2 ∧
      searchH x1 y1 x2 y2 (w1.mem.next + 1) r w1.mem = .ok ns ∧ Reads w2.mem ns ps ∧ ps.map Pt.xy = (searchRegion x1 y1 x2 y2 t1).map Pt.xy ∧
      ∀ p ∈ ps, find t2 p.x p.y = .ok p.d := by
  rw [fitsAll_append, Bool.and_eq_true] at hl
  obtain ⟨S1, g1, hs1, i1, n1⟩ := ran hl.1 h1
  obtain ⟨hr1, ht1⟩ := i1.at hi
  subst hr1
  obtain ⟨u1, u2⟩ := i1.runs n1 l2 hl.2
  cases hs2 : semRun S1 l2 with
  | ub => exact absurd hs2 u1
  | err e => rw [hs2] at u2; rw [show World.run w1 l2 = .err e from u2] at h2; cases h2
  | ok S2 =>
    rw [hs2] at u2
    obtain ⟨w', e, n2, g2, i2, hk⟩ := u2
    rw [h2] at e; cases e
    have hk := hk i j hij
    have hsh := i1.sh i
    have hsearch := searchH_any x1 y1 x2 y2 hsh (hsh.depth_le i1.rc (i1.one i))
    have hall : ∀ ap ∈ (own (g1 i)).hits x1 y1 x2 y2, ∃ c, w2.mem.cell ap.1 = some c ∧ c.x = ap.2.x ∧ c.y = ap.2.y ∧
        (⟨ap.2.x, ap.2.y, c.d⟩ : Pt V) ∈ allData (own (g2 j)).tree := fun ap hap =>
      has_cell (i2.sh j) (hk _ _ _ (hits_has (a := ap.1) (p := ap.2) hap))
    have hj := followAll_uses hl.2 (by rw [n1 i, ht1]; rfl) hij
    obtain ⟨u, hu, hsu, _⟩ := i2.root n2 hj
    rw [show own (g2 j) = u by rw [hu]; rfl] at hall
    have hwf := i2.wf j _ hsu
    refine ⟨S1, S2, _, u.tree, _, ((own (g1 i)).hits x1 y1 x2 y2).map fun ap => ((w2.mem.cell ap.1).elim ap.2 fun c => ⟨c.x, c.y, c.d⟩), hs1, ht1, hs2, hsu, hsearch, ⟨by simp, ?_⟩, ?_, ?_⟩
    · intro k a p ha hp
      rw [List.getElem?_map] at ha hp
      cases he : ((own (g1 i)).hits x1 y1 x2 y2)[k]? with
      | none => rw [he] at ha; cases ha
      | some ap =>
        rw [he] at ha hp
        cases ha; cases hp
        obtain ⟨c, hc, _⟩ := hall ap (List.mem_of_getElem? he)
        exact ⟨c, hc, by simp [hc]⟩
    · rw [← hits_points, List.map_map, List.map_map]
      apply List.map_congr_left
      intro ap hap
      obtain ⟨c, hc, e1, e2, _⟩ := hall ap hap
      simp [hc, Pt.xy, e1, e2]
    · intro p hp
      rw [List.mem_map] at hp
      obtain ⟨ap, hap, rfl⟩ := hp
      obtain ⟨c, hc, e1, e2, e3⟩ := hall ap hap
      have := (findNode_iff hwf _ _ _).2 e3
      simp only [hc, Option.elim, e1, e2, find, this]

theorem region_reads {l : List (Call V)} (hl : fitsAll (fun _ => false) l = true) {w : World V} (hr : World.run World.start l = .ok w) {i : Nat} {r : Option Nat}
    (hi : w.var i = some r) (x1 y1 x2 y2 : Int) :
    ∃ S t ns, semRun (fun _ => none) l = .ok S ∧ S i = some t ∧ searchH x1 y1 x2 y2 (w.mem.next + 1) r w.mem = .ok ns ∧
      Reads w.mem ns (searchRegion x1 y1 x2 y2 t) := by
  obtain ⟨S, g, hs, h, _⟩ := ran hl hr
  obtain ⟨e1, e2⟩ := h.at hi
  subst e1
  have hsh := h.sh i
  refine ⟨S, _, _, hs, e2, searchH_any x1 y1 x2 y2 hsh (hsh.depth_le h.rc (h.one i)), ?_⟩
  rw [← hits_points]
  refine ⟨by simp, fun n a p ha hp => ?_⟩
  rw [List.getElem?_map] at ha hp
  cases he : ((own (g i)).hits x1 y1 x2 y2)[n]? with
  | none => rw [he] at ha; cases ha
  | some ap =>
    rw [he] at ha hp
    cases ha; cases hp
    have hm := List.mem_of_getElem? he
    obtain ⟨c, hc, e3, e4, e5⟩ := has_cell hsh (hits_has (a := ap.1) (p := ap.2) hm)
    refine ⟨c, hc, ?_⟩
    have := wf_inj (h.wf i _ e2) (hits_data hm) e5 rfl rfl
    show ap.2 = _
    rw [this, e3, e4]

/-- **C67 (walking a search result).**  After any program, the result of a region search, walked through from `begin()` to `end()`, shows
exactly the points the search reports, in that order, and from the end reached that way backwards the same in reverse. -/
theorem C67_loop_partial (l : List (Call V)) (hl : fitsAll (fun _ => false) l = true) {w : World V} (hr : World.run World.start l = .ok w) {i : Nat} {r : Option Nat}
    (hi : w.var i = some r) (x1 y1 x2 y2 : Int) :
    ∃ S t ns, semRun (fun _ => none) l = .ok S ∧ S i = some t ∧ searchH x1 y1 x2 y2 (w.mem.next + 1) r w.mem = .ok ns ∧
      ∀ k d0, ∃ it, Found.loop ⟨k, ns⟩ d0 w.mem = .ok (searchRegion x1 y1 x2 y2 t, it) ∧ it.eq (Found.fin ⟨k, ns⟩ d0) = true ∧
        Found.loopBack ⟨k, ns⟩ d0 it w.mem = .ok (searchRegion x1 y1 x2 y2 t).reverse := by
  obtain ⟨S, t, ns, h1, h2, h3, h4⟩ := region_reads hl hr hi x1 y1 x2 y2
  refine ⟨S, t, ns, h1, h2, h3, fun k d0 => ?_⟩
  obtain ⟨it, a1, a2, a3, _⟩ := loops h4 k d0
  exact ⟨it, a1, a2, a3⟩

/-- **C67 (a result that is kept).**  The result stays usable while the program goes on, as long as nothing is removed from the container
(`followAll`: it may be inserted into, copied and swapped; `j` is its name in the end): the loop shows the same positions in the same order,
with the data stored there now. -/
theorem C67_kept_partial (l1 l2 : List (Call V)) (hl : fitsAll (fun _ => false) (l1 ++ l2) = true) {w1 w2 : World V} (h1 : World.run World.start l1 = .ok w1)
    (h2 : World.run w1 l2 = .ok w2) {i j : Nat} (hij : followAll i l2 = some j) {r : Option Nat} (hi : w1.var i = some r) (x1 y1 x2 y2 : Int) :
    ∃ S1 S2 t1 t2 ns, semRun (fun _ => none) l1 = .ok S1 ∧ S1 i = some t1 ∧ semRun S1 l2 = .ok S2 ∧ S2 j = some t2 ∧
      searchH x1 y1 x2 y2 (w1.mem.next + 1) r w1.mem = .ok ns ∧
      ∀ k d0, ∃ ps it, Found.loop ⟨k, ns⟩ d0 w2.mem = .ok (ps, it) ∧ ps.map Pt.xy = (searchRegion x1 y1 x2 y2 t1).map Pt.xy ∧
        (∀ p ∈ ps, find t2 p.x p.y = .ok p.d) ∧ it.eq (Found.fin ⟨k, ns⟩ d0) = true ∧ Found.loopBack ⟨k, ns⟩ d0 it w2.mem = .ok ps.reverse := by
  obtain ⟨S1, S2, t1, t2, ns, ps, a1, a2, a3, a4, a5, a6, a7, a8⟩ := found_reads hl h1 h2 hij hi x1 y1 x2 y2
  refine ⟨S1, S2, t1, t2, ns, a1, a2, a3, a4, a5, fun k d0 => ?_⟩
  obtain ⟨it, b1, b2, b3, _⟩ := loops a6 k d0
  exact ⟨ps, it, b1, a7, a8, b2, b3⟩

/-- **C67 (backwards from `end()`).**  Stepping back from `end()` itself goes through the same positions, but the first value it shows is not
the last point found: it is the default constructed value `(0, 0)`. This holds for every result that is not empty. -/
theorem C67_end_exact (l : List (Call V)) (hl : fitsAll (fun _ => false) l = true) {w : World V} (hr : World.run World.start l = .ok w) {i : Nat} {r : Option Nat}
    (hi : w.var i = some r) (x1 y1 x2 y2 : Int) :
    ∃ S t ns, semRun (fun _ => none) l = .ok S ∧ S i = some t ∧ searchH x1 y1 x2 y2 (w.mem.next + 1) r w.mem = .ok ns ∧
      ∀ k d0, Found.loopBack ⟨k, ns⟩ d0 (Found.fin ⟨k, ns⟩ d0) w.mem =
        .ok (match (searchRegion x1 y1 x2 y2 t).reverse with | [] => [] | _ :: r => ⟨0, 0, d0⟩ :: r) := by
  obtain ⟨S, t, ns, h1, h2, h3, h4⟩ := region_reads hl hr hi x1 y1 x2 y2
  refine ⟨S, t, ns, h1, h2, h3, fun k d0 => ?_⟩
  obtain ⟨it, _, _, _, a4⟩ := loops h4 k d0
  exact a4

/-! ### Where the property does not hold -/

/-- A search in container 0 after one program, walked through after another; backwards from `end()` if `back`. -/
def trial (l1 l2 : List (Call Nat)) (x1 y1 x2 y2 : Int) (back : Bool) : Outcome (List (Pt Nat)) :=
  (World.run World.start l1).bind fun w => (w.root 0).bind fun r => (searchH x1 y1 x2 y2 (w.mem.next + 1) r w.mem).bind fun ns =>
    (World.run w l2).bind fun w2 =>
      if back then Found.loopBack ⟨0, ns⟩ 0 (Found.fin ⟨0, ns⟩ 0) w2.mem
      else (Found.loop ⟨0, ns⟩ 0 w2.mem).bind fun r => .ok r.1

/-- What the trial shows; `none` if it is undefined. -/
def shown (o : Outcome (List (Pt Nat))) : Option (List (Int × Int × Nat)) :=
  match o with
  | .ok l => some (l.map fun p => (p.x, p.y, p.d))
  | _ => none

/-- Three points. -/
def three : List (Call Nat) := [.make 0, .insert 0 10 10 1, .insert 0 20 20 2, .insert 0 30 5 3]

example : fitsAll (fun _ => false) (three ++ [.insert 0 20 20 7, .insert 0 25 25 8, .make 1, .swap 0 1]) = true ∧
    followAll 0 ([.insert 0 20 20 7, .insert 0 25 25 8, .make 1, .swap 0 1] : List (Call Nat)) = some 1 := by decide

/-- Found, then walked; then walked after insertions and a swap. -/
example : shown (trial three [] 0 0 25 25 false) = some [(10, 10, 1), (20, 20, 2)] ∧
    shown (trial three [.insert 0 20 20 7, .insert 0 25 25 8, .make 1, .swap 0 1] 0 0 25 25 false) = some [(10, 10, 1), (20, 20, 7)] := by decide +kernel

/-- `auto it = r.end(); --it; *it` is not the last point found. -/
theorem C67_end_fails : shown (trial three [] 0 0 25 25 false) = some [(10, 10, 1), (20, 20, 2)] ∧
    shown (trial three [] 0 0 25 25 true) = some [(0, 0, 0), (10, 10, 1)] := by decide +kernel

/-- A point found and then removed: walking through the result follows a dangling pointer. -/
theorem C67_removed_fails : trial three [.remove 0 20 20] 0 0 25 25 false = .ub := by decide +kernel

/-- A result that has nothing to do with the removed point may change as well: the node of a point that stays is deleted, because another
node takes its place. -/
theorem C67_moved_fails : shown (trial three [] 20 20 25 25 false) = some [(20, 20, 2)] ∧
    trial three [.remove 0 10 10] 20 20 25 25 false = .ub := by decide +kernel

/-- **C68 (node access).**  After any program, walking the whole tree with `node_access` from `get_node_access()` shows exactly the points of the
container, each once; a point to the northeast of another lies there, and so on for the other directions. -/
theorem C68_access (l : List (Call V)) (hl : fitsAll (fun _ => false) l = true) {w : World V} (hr : World.run World.start l = .ok w) {i : Nat} {r : Option Nat}
    (hi : w.var i = some r) :
    ∃ S t s, semRun (fun _ => none) l = .ok S ∧ S i = some t ∧ accessH (w.mem.next + 1) r w.mem = .ok s ∧ s.points = allData t ∧ s.Ordered := by
  obtain ⟨S, g, hs, h, _⟩ := ran hl hr
  obtain ⟨e1, e2⟩ := h.at hi
  subst e1
  have hsh := h.sh i
  exact ⟨S, _, _, hs, e2, accessH_any hsh (hsh.depth_le h.rc (h.one i)), seen_points _, seen_ordered (h.wf i _ e2)⟩

example : ((World.run World.start three).bind fun w => (w.root 0).bind fun r => accessH (w.mem.next + 1) r w.mem) =
    .ok (.node ⟨10, 10, 1⟩ (.node ⟨30, 5, 3⟩ .nothing .nothing .nothing .nothing) .nothing (.node ⟨20, 20, 2⟩ .nothing .nothing .nothing .nothing) .nothing) := by
  decide +kernel

end Mdds.Quad
