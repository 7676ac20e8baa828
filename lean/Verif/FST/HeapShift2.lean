import Verif.FST.HeapShift

/-!
# Shifting to the right in memory
-/
namespace Mdds.FST.Mem

variable {V : Type}

/-- The inner loop of `shift_leaf_key_right`: unlinks everything before the right leaf. -/
theorem wp_srInnerP (o r : Nat) : ∀ (B : List Nat) (fuel : Nat) (g : Pic V) (h : Heap V),
    Sat g h → B.length < fuel → g.R (.var .cur) = (B ++ [r]).head? → g.R (.right o) = some r →
    g.R (.var .nxt) = none → r ∉ B → B.Nodup → Path g.N B (some r) →
    wp (srInnerP o fuel) (fun _ h' => ∃ g', Sat g' h' ∧ g'.K = g.K ∧ g'.W = g.W ∧ g'.fr = g.fr ∧ g'.U = g.U ∧
      (∀ q, q ≠ .var .cur → g'.R q = g.R q) ∧ g'.R (.var .cur) = some r ∧
      (∀ a, a ∉ B → g'.N a = g.N a ∧ g'.P a = g.P a) ∧ (∀ a ∈ B, g'.N a = none ∧ g'.P a = none)) h := by
  intro B
  induction B with
  | nil =>
    intro fuel g h s hf hn hr hx hrB hnd hp
    cases fuel with
    | zero => simp at hf
    | succ f =>
      unfold srInnerP
      refine wp_bind (wp_get s (wp_bind (wp_get s ?_)))
      rw [hn, hr, if_pos (by simp)]
      exact wp_ret ⟨g, s, rfl, rfl, rfl, rfl, fun _ _ => rfl, by simpa using hn, fun _ _ => ⟨rfl, rfl⟩, by simp⟩
  | cons b B ih =>
    intro fuel g h s hf hn hr hx hrB hnd hp
    cases fuel with
    | zero => simp at hf
    | succ f =>
      have hn' : g.R (.var .cur) = some b := by simpa using hn
      simp only [List.mem_cons, not_or] at hrB
      rw [List.nodup_cons] at hnd
      rw [path_cons] at hp
      have hlb : Live h b := s.live_root hn'
      unfold srInnerP
      refine wp_bind (wp_get s (wp_bind (wp_get s ?_)))
      rw [hn', hr, if_neg (by simpa using Ne.symm hrB.1)]
      refine wp_bind (wp_nonnull rfl (wp_bind (wp_getNext s hlb (wp_bind ?_))))
      refine wp_assign s rfl (fun a ha => s.live_next hlb ha) fun h1 s1 => wp_bind ?_
      have hn1 : (g.set (.root (.var .nxt)) (g.N b)).R (.var .cur) = some b := by simp [Pic.set, upd, hn']
      refine wp_disconnectAll s1 (s1.live_root hn1) (fun h2 s2 => s2.live_root (r := .var .cur) hn1) fun h2 s2 => wp_bind ?_
      refine wp_moveTo s2 rfl (by simp) fun h3 s3 => ?_
      simp only [Pic.set, upd_same] at s3
      have hNb : g.N b = (B ++ [r]).head? := by rw [hp.1]; cases B <;> simp
      refine wp_mono (ih f _ h3 s3 (by simp at hf; omega) (by simp [hNb]) (by simp [upd, hr]) (by simp [upd]) hrB.2 hnd.2 ?_) ?_
      · refine (path_congr fun a ha => ?_).2 hp.2
        have : a ≠ b := fun e => hnd.1 (e ▸ ha)
        simp [upd, this]
      · dsimp only
        rintro _ h4 ⟨g', s4, k1, k2, k3, k4, k5, k6, k7, k8⟩
        refine ⟨g', s4, k1, k2, k3, k4, fun q hq => ?_, k6, fun a ha => ?_, fun a ha => ?_⟩
        · rw [k5 q hq]
          by_cases e1 : q = .var .nxt
          · subst e1; simp [upd, hx]
          · simp [upd, e1, hq]
        · simp only [List.mem_cons, not_or] at ha
          have := k7 a ha.2
          simpa [upd, ha.1] using this
        · by_cases hab : a ∈ B
          · exact k8 a hab
          · have : a = b := (List.mem_cons.1 ha).resolve_right hab
            subst this
            have := k7 a hab
            simpa using this

theorem shiftRightFrom_eq (A B : List (Leaf V)) (r : Leaf V) (hi d : Int) :
    shiftRightFrom (A ++ (B ++ [r])) A.length hi d = A ++ (shiftKeysRight B hi d ++ [r]) := by
  unfold shiftRightFrom
  simp

/-- `shift_leaf_key_right` in memory, for leaves `B` after the non-empty `A`. -/
theorem wp_shiftKeysRightP (o r : Nat) (hi d : Int) : ∀ (B A : List Nat) (fuel : Nat) (g0 g : Pic V) (h : Heap V)
    (ls : List (Leaf V)) (X : Nat → Prop), Env g0 o X → A ≠ [] →
    St g0 g h o (A ++ (B ++ [r])) ls X [.cur] → B.length < fuel → g.R (.var .cur) = (B ++ [r]).head? →
    wp (shiftKeysRightP o hi d fuel) (fun _ h' => ∃ g' B', St g0 g' h' o (A ++ (B' ++ [r]))
      (A.map g.D ++ (shiftKeysRight (B.map g.D) hi d ++ [g.D r])) X [.cur]) h := by
  intro B
  induction B with
  | nil =>
    intro A fuel g0 g h ls X env hA st hf hc
    have hd := st.data
    subst hd
    cases fuel with
    | zero => simp at hf
    | succ f =>
      unfold shiftKeysRightP
      refine wp_bind (wp_get st.sat (wp_bind (wp_get st.sat ?_)))
      have hRr : g.R (.right o) = some r := by rw [st.right]; simp [List.getLast?_append]
      rw [hc, hRr, if_pos (by simp)]
      exact wp_ret ⟨g, [], by simpa [shiftKeysRight] using st⟩
  | cons b B ih =>
    intro A fuel g0 g h ls X env hA st hf hc
    have hd := st.data
    subst hd
    cases fuel with
    | zero => simp at hf
    | succ f =>
      have hnd := st.nodup
      have hne : b ≠ r ∧ b ∉ A ∧ b ∉ B ∧ r ∉ B ∧ r ∉ A ∧ B.Nodup ∧ (∀ a ∈ B, a ∉ A) := by
        simp only [List.nodup_append, List.cons_append, List.nodup_cons, List.mem_append, List.mem_cons, not_or] at hnd
        obtain ⟨_, ⟨⟨a1, a2, _⟩, a3, _, a5⟩, a6⟩ := hnd
        exact ⟨a2, fun h => a6 b h b (.inl rfl) rfl, a1, fun h => a5 r h r (.inl rfl) rfl,
          fun h => a6 r h r (.inr (.inr (.inl rfl))) rfl, a3, fun a ha h => a6 a h a (.inr (.inl ha)) rfl⟩
      obtain ⟨hbr, hbA, hbB, hrB, hrA, hBn, hBA⟩ := hne
      have hc' : g.R (.var .cur) = some b := hc
      have hRr : g.R (.right o) = some r := by rw [st.right]; simp [List.getLast?_append, List.getLast?_cons]
      unfold shiftKeysRightP
      refine wp_bind (wp_get st.sat (wp_bind (wp_get st.sat ?_)))
      rw [hc', hRr, if_neg (by simpa using hbr)]
      refine wp_bind (wp_nonnull rfl (wp_bind (wp_getKey st.sat (st.live (by simp)) ?_)))
      refine wp_bind (wp_setKeySt st (A := A) (B := B ++ [r]) (by simp) fun h1 st1 => ?_)
      have hN : g.N b = (B ++ [r]).head? := st.next_eq (A := A) (by simp)
      have hDA : ∀ l : List Nat, b ∉ l → l.map (Pic.D { g with K := upd g.K b (g.K b + d) }) = l.map g.D := fun l hl =>
        map_D_congr (fun a ha => upd_ne _ _ fun e => hl (e ▸ ha)) (fun _ _ => rfl)
      have hDr : Pic.D { g with K := upd g.K b (g.K b + d) } r = g.D r := by simp [Pic.D, upd, Ne.symm hbr]
      by_cases hk : g.K b + d < hi
      · rw [if_pos hk]
        refine wp_bind (wp_getNext st1.sat (st1.live (by simp)) (wp_bind ?_))
        refine wp_setVar st1 (vs' := [.cur]) (fun a ha => ?_) (by simp) (by simp) fun h2 st2 => ?_
        · have ha' : g.N b = some a := ha
          rw [hN] at ha'
          have := List.mem_of_head? ha'
          simp at this ⊢; tauto
        have st2' := st2
        rw [show A ++ (b :: B ++ [r]) = (A ++ [b]) ++ (B ++ [r]) by simp] at st2'
        refine wp_mono (ih (A ++ [b]) f g0 _ h2 _ X env (by simp) st2' (by simp at hf; omega) (by simp [Pic.set, hN])) ?_
        rintro _ h3 ⟨g3, B3, st3⟩
        refine ⟨g3, b :: B3, ?_⟩
        have e1 : (A ++ [b]).map (Pic.D (Pic.set { g with K := upd g.K b (g.K b + d) } (.root (.var .cur)) (g.N b))) =
            A.map g.D ++ [(g.K b + d, g.W b)] := by
          have := hDA A hbA
          rw [List.map_append]
          congr 1
          simp [Pic.D, Pic.set]
        have e2 : B.map (Pic.D (Pic.set { g with K := upd g.K b (g.K b + d) } (.root (.var .cur)) (g.N b))) = B.map g.D :=
          hDA B hbB
        have e3 : Pic.D (Pic.set { g with K := upd g.K b (g.K b + d) } (.root (.var .cur)) (g.N b)) r = g.D r := hDr
        dsimp only at st3
        rw [e1, e2, e3] at st3
        have e4 : shiftKeysRight ((b :: B).map g.D) hi d = (g.K b + d, g.W b) :: shiftKeysRight (B.map g.D) hi d := by
          simp [shiftKeysRight, Pic.D, hk]
        rw [e4]
        simpa using st3
      · rw [if_neg hk]
        rcases nil_or_snoc A with rfl | ⟨A', l, rfl⟩
        · exact absurd rfl hA
        have hP : g.P b = some l := by
          rw [st.prev_eq (A := A' ++ [l]) (B := B ++ [r]) (by simp)]; simp
        have hlb1 : Live h1 b := st1.live (by simp)
        refine wp_bind (wp_getPrev st1.sat hlb1 (wp_bind ?_))
        simp only [hP]
        refine wp_setVar st1 (vs' := [.lastNode, .cur]) (fun a ha => ?_) (by simp) (by simp) fun h2 st2 => ?_
        · cases ha; simp
        simp only [Pic.set] at st2
        refine wp_bind (wp_loopBound st2.sat (wp_bind ?_))
        have hfw := st2.fwd
        rw [path_append] at hfw
        have hfw := (path_append _ _ _ _).1 hfw.2
        have hll := st2.length_le
        refine wp_mono (wp_srInnerP o r (b :: B) _ _ h2 st2.sat (by simp at hll ⊢; omega) (by simp [upd, hc'])
          (by simp [upd, hRr]) ?_ (by simp [Ne.symm hbr, hrB]) (by simp [hbB, hBn]) (by simpa using hfw.1)) ?_
        · by_contra hx
          obtain ⟨a, ha⟩ := Option.ne_none_iff_exists'.1 hx
          have := (st2.vars .nxt a ha).2
          simp at this
        rintro _ h3 ⟨g3, s3, k1, k2, k3, k4, k5, k6, k7, k8⟩
        dsimp only at k1 k2 k3 k4 k5 k7
        have hl3 : g3.R (.var .lastNode) = some l := by rw [k5 _ (by simp)]; simp
        have hr3 : g3.R (.right o) = some r := by rw [k5 _ (by simp)]; simp [upd, hRr]
        have hlb : l ∉ b :: B := by
          rintro h
          rcases List.mem_cons.1 h with h | h
          · exact hbA (by simp [← h])
          · exact hBA l h (by simp)
        have hlr : l ≠ r := fun h => hrA (by simp [← h])
        refine wp_bind (wp_get s3 (wp_bind (wp_nonnull hl3 (wp_bind (wp_get s3 (wp_bind ?_))))))
        rw [hr3]
        refine wp_setNext s3 (s3.live_root hl3) (fun a ha => by cases ha; exact s3.live_root hr3) fun h4 s4 => ?_
        refine wp_bind (wp_get s4 (wp_bind (wp_nonnull hr3 ?_)))
        have hlr4 : Live h4 r := s4.live_root (r := .right o) hr3
        refine wp_moveTo s4 (l := .prev r) hlr4 (by simp) fun h5 s5 => ?_
        simp only [Pic.set, hl3] at s5
        have f : Fin { g with K := upd g.K b (g.K b + d), R := upd g.R (.var .lastNode) (some l) }
            { g3 with N := upd g3.N l (some r), P := upd g3.P r (some l), R := upd g3.R (.var .lastNode) none } h5 A' (b :: B) [] [] l r := by
          refine ⟨s5, fun a ha => ?_, by simp, fun a ha => ?_, by simp, by simp, List.nodup_nil, fun a ha => ?_, fun a ha => ?_,
            fun q hq => ?_, fun a ha => .inl (by rw [← k4]; exact ha), Nat.le_of_eq k3.symm, fun _ => 0, fun a ha c hb => ?_⟩
          · simp only [List.append_nil] at ha
            rw [List.mem_cons, not_or] at ha
            show upd g3.N l (some r) a = _
            rw [upd_ne _ _ ha.1, (k7 a ha.2).1]
          · simp only [List.append_nil] at ha
            rw [List.mem_cons, not_or] at ha
            show upd g3.P r (some l) a = _
            rw [upd_ne _ _ ha.1, (k7 a ha.2).2]
          · show g3.K a = _
            rw [k1]
          · show g3.W a = _
            rw [k2]
          · show upd g3.R (.var .lastNode) none q = _
            rw [upd_ne _ _ (hq _), k5 q (hq _)]
          · have e1 : a ≠ l := fun e => hlb (e ▸ ha)
            have e2 : a ≠ r := by
              rintro rfl
              rcases List.mem_cons.1 ha with h | h
              · exact hbr h.symm
              · exact hrB h
            simp only [upd_ne _ _ e1, upd_ne _ _ e2, k8 a ha] at hb
            simp at hb
        have st2' := st2
        rw [show A' ++ [l] ++ (b :: B ++ [r]) = A' ++ l :: ((b :: B) ++ r :: []) by simp] at st2'
        have st6 := f.toSt (vs' := [.cur]) env st2' (fun x a ha => by
          by_cases e1 : x = .lastNode
          · subst e1; simp at ha
          · have ha' : g3.R (.var x) = some a := by simpa [upd, e1] using ha
            by_cases e2 : x = .cur
            · subst e2
              rw [k6] at ha'; cases ha'; simp
            · rw [k5 _ (by simp [e2])] at ha'
              have := (st2.vars x a ha').2
              simp [e1, e2] at this)
        have e4 : shiftKeysRight ((b :: B).map g.D) hi d = [] := by
          simp [shiftKeysRight, Pic.D, hk]
        have hD : ∀ x, x ∈ A' ++ [l, r] → x ≠ b := by
          intro x hx e
          subst e
          simp only [List.mem_append, List.mem_cons, List.not_mem_nil, or_false] at hx hbA
          rcases hx with h | h | h
          · exact hbA (.inl h)
          · exact hbA (.inr h)
          · exact hbr h
        have e5 : (A' ++ l :: ([] ++ r :: [])).map (fun a => (g3.K a, g3.W a)) = (A' ++ [l]).map g.D ++ ([] ++ [g.D r]) := by
          rw [k1, k2]
          have : ∀ x ∈ A' ++ [l, r], (upd g.K b (g.K b + d) x, g.W x) = g.D x := fun x hx => by
            simp [Pic.D, upd, hD x hx]
          have h2 := List.map_congr_left this
          simpa using h2
        have e6 : (A' ++ l :: ([] ++ r :: [])).map (Pic.D (V := V)
            { g3 with N := upd g3.N l (some r), P := upd g3.P r (some l), R := upd g3.R (.var .lastNode) none }) =
            (A' ++ [l]).map g.D ++ (shiftKeysRight ((b :: B).map g.D) hi d ++ [g.D r]) := by
          rw [e4, ← e5]; rfl
        rw [e6, show A' ++ l :: ([] ++ r :: []) = A' ++ [l] ++ ([] ++ [r]) by simp] at st6
        exact ⟨_, [], st6⟩

theorem wp_shiftFromP {g0 g : Pic V} {h : Heap V} {o r : Nat} {A B : List Nat} {ls : List (Leaf V)} {X : Nat → Prop}
    (env : Env g0 o X) (hA : A ≠ []) (st : St g0 g h o (A ++ (B ++ [r])) ls X [.cur])
    (hc : g.R (.var .cur) = (B ++ [r]).head?) (d : Int) :
    wp (shiftFromP o d) (fun _ h' => ∃ g' B', St g0 g' h' o (A ++ (B' ++ [r]))
      (A.map g.D ++ (shiftKeysRight (B.map g.D) (g.K r) d ++ [g.D r])) X [.cur]) h := by
  have hRr : g.R (.right o) = some r := by rw [st.right]; simp [List.getLast?_append]
  unfold shiftFromP
  refine wp_bind (wp_get st.sat (wp_bind (wp_nonnull hRr (wp_bind (wp_getKey st.sat (st.live (by simp)) ?_)))))
  refine wp_bind (wp_loopBound st.sat ?_)
  exact wp_shiftKeysRightP o r (g.K r) d B A _ g0 g h ls X env hA st (by have := st.length_le; simp at this ⊢; omega) hc

section
variable [DecidableEq V]

/-- A new segment at the left border, in memory. -/
theorem wp_srBorderP {g0 g : Pic V} {h : Heap V} {o l n : Nat} {T : List Nat} {ls : List (Leaf V)} {X : Nat → Prop}
    (env : Env g0 o X) (st : St g0 g h o (l :: n :: T) ls X [.cur]) (init : V) (pos size lo hi : Int) (skip : Bool) :
    wp (srBorderP init pos size lo hi skip l) (fun _ h' => ∃ g' as', St g0 g' h' o as'
      (if g.W l ≠ init ∧ skip = false then
        if size < hi - lo then (g.K l, init) :: (pos + size, g.W l) :: (n :: T).map g.D
        else (g.K l, init) :: (n :: T).map g.D
      else (l :: n :: T).map g.D) X [.cur]) h := by
  have hd := st.data
  subst hd
  have hll : Live h l := st.live (by simp)
  have hnd := st.nodup
  have hln : l ≠ n ∧ l ∉ T ∧ n ∉ T := by
    simp only [List.nodup_cons, List.mem_cons, not_or] at hnd
    exact ⟨hnd.1.1, hnd.1.2, hnd.2.1⟩
  unfold srBorderP
  refine wp_bind (wp_getVal st.sat hll ?_)
  by_cases hc : g.W l ≠ init ∧ skip = false
  · rw [if_pos hc, if_pos hc]
    by_cases hs : size < hi - lo
    · rw [if_pos hs, if_pos hs]
      have hfr := st.fr_notin
      have hfX := st.fr_notX env
      have hf : g.fr ≠ l ∧ g.fr ≠ n ∧ g.fr ∉ T := by simpa using hfr
      have hNl : g.N l = some n := by rw [st.next_eq (A := []) rfl]; rfl
      refine wp_bind (wp_getVal st.sat hll (wp_bind (wp_alloc st.sat fun h1 s1 => wp_bind ?_)))
      have hRl : g.R (.left o) = some l := st.left
      have hl1 : Live h1 l := s1.live_root (r := .left o) (by simp [Pic.new, upd, hRl])
      refine wp_setVal s1 hl1 fun h2 s2 => wp_bind ?_
      have hRl2 : (g.new (.var .newNode) (pos + size) (g.W l)).R (.left o) = some l := by simp [Pic.new, upd, hRl]
      have hRn2 : (g.new (.var .newNode) (pos + size) (g.W l)).R (.var .newNode) = some g.fr := by simp [Pic.new]
      have hNl2 : (g.new (.var .newNode) (pos + size) (g.W l)).N l = some n := by simp [Pic.new, upd, Ne.symm hf.1, hNl]
      refine wp_setPrev s2 (s2.live_root (r := .var .newNode) hRn2)
        (fun b hb => by cases hb; exact s2.live_root (r := .left o) hRl2) fun h3 s3 => ?_
      have hl3 : Live h3 l := s3.live_root (r := .left o) hRl2
      refine wp_bind (wp_getNext s3 hl3 (wp_bind ?_))
      simp only [hNl2]
      refine wp_setNext s3 (s3.live_root (r := .var .newNode) hRn2)
        (fun b hb => by cases hb; exact s3.live_next hl3 hNl2) fun h4 s4 => ?_
      have hl4 : Live h4 l := s4.live_root (r := .left o) hRl2
      have hNl4 : upd (g.new (.var .newNode) (pos + size) (g.W l)).N g.fr (some n) l = some n := by
        rw [upd_ne _ _ (Ne.symm hf.1), hNl2]
      refine wp_bind (wp_getNext s4 hl4 (wp_bind (wp_nonnull hNl4 (wp_bind ?_))))
      refine wp_setPrev s4 (s4.live_next hl4 hNl4)
        (fun b hb => by cases hb; exact s4.live_root (r := .var .newNode) hRn2) fun h5 s5 => ?_
      have hl5 : Live h5 l := s5.live_root (r := .left o) hRl2
      refine wp_moveTo s5 (l := .next l) hl5 (by simp) fun h6 s6 => ?_
      simp only [Pic.set, Pic.new, upd_same] at s6
      have stR := St.insert (A := []) (l := l) (r := n) (B := T) (vs' := [.cur]) env st s6
        (ls' := (g.K l, init) :: (pos + size, g.W l) :: (n :: T).map g.D)
        (fun a => ?_) (fun a => ?_) (fun a ha => ?_) (fun a ha => ?_) ?_
        (fun x a e => ?_) (fun q hq => ?_) (fun a ha => ha) (by simp)
      · exact ⟨_, _, stR⟩
      · by_cases e1 : a = g.fr
        · subst e1; simp [upd, hf.1]
        · by_cases e2 : a = l
          · subst e2; simp [upd, e1]
          · simp [upd, e1, e2]
      · by_cases e1 : a = g.fr
        · subst e1; simp [upd, hf.2.1]
        · by_cases e2 : a = n
          · subst e2; simp [upd, e1]
          · simp [upd, e1, e2]
      · have : a ≠ g.fr := fun e => hfX (e ▸ ha)
        simp [upd, this]
      · have h1 : a ≠ g.fr := fun e => hfX (e ▸ ha)
        have h2 : a ≠ l := fun e => st.disj l (by simp) (e ▸ ha)
        simp [upd, h1, h2]
      · simp only [List.nil_append, List.map_cons, List.cons.injEq]
        refine ⟨by simp [Pic.D, upd, Ne.symm hf.1], by simp [Pic.D, upd, hf.1], ?_, ?_⟩
        · simp [Pic.D, upd, Ne.symm hf.2.1, Ne.symm hln.1]
        · refine map_D_congr (fun a ha => ?_) (fun a ha => ?_)
          · have : a ≠ g.fr := fun e => hf.2.2 (e ▸ ha)
            simp [upd, this]
          · have h1 : a ≠ g.fr := fun e => hf.2.2 (e ▸ ha)
            have h2 : a ≠ l := fun e => hln.2.1 (e ▸ ha)
            simp [upd, h1, h2]
      · by_cases e1 : x = .newNode
        · subst e1; simp at e
        · have := st.vars x a (by simpa [upd, e1] using e)
          refine ⟨?_, this.2⟩
          rcases this.1 with h | h
          · left; simp at h ⊢; tauto
          · exact .inr h
      · simp [upd, hq .newNode]
    · rw [if_neg hs, if_neg hs]
      exact wp_setValSt st (A := []) rfl fun h1 st1 => ⟨_, _, by simpa using st1⟩
  · rw [if_neg hc, if_neg hc]
    exact wp_ret ⟨g, _, st⟩

omit [DecidableEq V] in
/-- Finding the first leaf to shift. -/
theorem wp_srStartP {g0 g : Pic V} {h : Heap V} {o : Nat} {as : List Nat} {X : Nat → Prop}
    (st : St g0 g h o as (as.map g.D) X []) {l : Nat} (hl : as.head? = some l) (pos : Int) (skip : Bool) :
    wp (srStartP pos skip l) (fun _ h' => ∃ g', St g0 g' h' o as (as.map g.D) X [.cur] ∧
      g'.R (.var .cur) = (insPos (as.map g.D) pos 1).bind (fun i => (as[i]?).bind fun c =>
        if skip = true ∧ g.K c = pos then as[i + 1]? else some c) ∧ g'.K = g.K ∧ g'.W = g.W) h := by
  unfold srStartP
  refine wp_bind (wp_loopBound st.sat (wp_bind (wp_getNext st.sat (st.live (List.mem_of_head? hl)) (wp_bind ?_))))
  obtain ⟨T, rfl⟩ : ∃ T, as = l :: T := by
    cases as with
    | nil => simp at hl
    | cons a T => simp at hl; exact ⟨T, by rw [hl]⟩
  rw [st.next_eq (A := []) rfl]
  have hf := st.fwd
  rw [path_cons] at hf
  have hll := st.length_le
  refine wp_insPosP st.sat pos T hf.2 (fun a ha => st.live (by have := List.mem_of_head? ha; simp [this])) _
    (by simp at hll; omega) ?_
  have hfi := find_insPos g (l :: T) pos 1
  rw [List.drop_one, List.tail_cons] at hfi
  rw [hfi]
  refine wp_bind (wp_setVar st (vs' := [.cur]) (fun a ha => mem_of_bind ha) (by simp) (by simp) fun h1 st1 => ?_)
  cases hi : insPos ((l :: T).map g.D) pos 1 with
  | none =>
    rw [hi] at st1
    exact wp_ret ⟨_, st1, by simp [Pic.set], rfl, rfl⟩
  | some i =>
    rw [hi] at st1
    cases hc : (l :: T)[i]? with
    | none =>
      simp only [Option.bind_some, hc] at st1 ⊢
      exact wp_ret ⟨_, st1, by simp [Pic.set], rfl, rfl⟩
    | some c =>
      simp only [Option.bind_some, hc] at st1 ⊢
      have hlc : Live h1 c := st1.live (List.mem_of_getElem? hc)
      refine wp_bind (wp_getKey st1.sat hlc ?_)
      by_cases hs : skip = true ∧ g.K c = pos
      · rw [if_pos (show skip = true ∧ (g.set (.root (.var .cur)) (some c)).K c = pos from hs)]
        refine wp_bind (wp_getNext st1.sat hlc ?_)
        have hN : (g.set (.root (.var .cur)) (some c)).N c = (l :: T)[i + 1]? := by
          obtain ⟨A, B, hAB, rfl⟩ := split_at hc
          rw [st1.next_eq hAB, hAB, List.getElem?_append_right (by omega)]
          simp [List.head?_eq_getElem?]
        rw [hN]
        exact wp_setVar st1 (vs' := [.cur]) (fun a ha => List.mem_of_getElem? ha) (by simp) (by simp)
          fun h2 st2 => ⟨_, st2, by simp [Pic.set, hs], rfl, rfl⟩
      · rw [if_neg (show ¬ (skip = true ∧ (g.set (.root (.var .cur)) (some c)).K c = pos) from hs)]
        exact wp_ret ⟨_, st1, by simp [Pic.set, hs], rfl, rfl⟩

/-- `shift_right` in memory. -/
theorem wp_shiftRightP {g0 g : Pic V} {h : Heap V} {o : Nat} {as : List Nat} {ls : List (Leaf V)} {X : Nat → Prop}
    (env : Env g0 o X) (st : St g0 g h o as ls X []) {init : V} {pos size : Int} {skip : Bool} {ls' : List (Leaf V)} {b : Bool}
    (hm : shiftRightLeaves ls init pos size skip = .ok (ls', b)) :
    wp (shiftRightP o init pos size skip) (fun out h' => out = b ∧ ∃ g' as', St g0 g' h' o as' ls' X [] ∧
      (b = true → as' = as)) h := by
  have hd := st.data
  subst hd
  unfold shiftRightLeaves at hm
  unfold shiftRightP
  by_cases hse : size ≤ 0
  · rw [if_pos hse] at hm ⊢
    cases hm
    exact wp_pure ⟨rfl, g, as, st, fun _ => rfl⟩
  · rw [if_neg hse] at hm ⊢
    cases hb : bounds (as.map g.D) with
    | err x => rw [hb] at hm; cases hm
    | ub => rw [hb] at hm; cases hm
    | ok lh =>
      obtain ⟨lo, hi⟩ := lh
      rw [hb] at hm
      obtain ⟨l, r, hl, hr, rfl, rfl⟩ := bounds_map hb
      refine wp_bind (wp_get st.sat (wp_bind (wp_nonnull (st.left.trans hl) (wp_bind ?_))))
      refine wp_getKey st.sat (st.live (List.mem_of_head? hl)) (wp_bind (wp_get st.sat (wp_bind ?_)))
      refine wp_nonnull (st.right.trans hr) (wp_bind (wp_getKey st.sat (st.live (List.mem_of_getLast? hr)) ?_))
      dsimp only at hm
      by_cases h1 : pos < g.K l ∨ g.K r ≤ pos
      · rw [if_pos h1] at hm ⊢
        cases hm
        exact wp_pure ⟨rfl, g, as, st, fun _ => rfl⟩
      rw [if_neg h1] at hm ⊢
      have hlr : l ≠ r := by rintro rfl; omega
      obtain ⟨B, rfl⟩ : ∃ B, as = [l] ++ (B ++ [r]) := by
        cases as with
        | nil => simp at hl
        | cons a T =>
          simp at hl; subst hl
          rcases nil_or_snoc T with rfl | ⟨B, r', rfl⟩
          · simp at hr; exact absurd hr hlr
          · refine ⟨B, ?_⟩
            simp [List.getLast?_append, List.getLast?_cons] at hr
            rw [hr]; rfl
      by_cases h2 : g.K l = pos
      · rw [if_pos h2] at hm ⊢
        refine wp_bind (wp_getNext st.sat (st.live (by simp)) (wp_bind ?_))
        rw [st.next_eq (A := []) (B := B ++ [r]) rfl]
        refine wp_setVar st (vs' := [.cur]) (fun a ha => ?_) (by simp) (by simp) fun h3 st3 => wp_bind ?_
        · have := List.mem_of_head? ha
          simp at this ⊢; tauto
        refine wp_mono (wp_shiftFromP env (by simp) st3 (by simp [Pic.set]) size) ?_
        rintro _ h4 ⟨g4, B4, st4⟩
        obtain ⟨n, T, hnT⟩ : ∃ n T, B4 ++ [r] = n :: T := by cases B4 <;> simp
        have hd4 := st4.data
        rw [hnT] at st4 hd4
        change St g0 g4 h4 o (l :: n :: T) _ X [.cur] at st4
        change [g4.D l] ++ (n :: T).map g4.D = [g.D l] ++ (shiftKeysRight (B.map g.D) (g.K r) size ++ [g.D r]) at hd4
        simp only [List.singleton_append, List.cons.injEq] at hd4
        refine wp_bind (wp_mono (wp_srBorderP env st4 init pos size (g.K l) (g.K r) skip) ?_)
        rintro _ h5 ⟨g5, as5, st5⟩
        refine wp_bind (wp_dropVar st5 (vs' := []) (by simp) fun h6 st6 => wp_pure ?_)
        have hKl : g4.K l = g.K l := congrArg Prod.fst hd4.1
        have hWl : g4.W l = g.W l := congrArg Prod.snd hd4.1
        have hsf : shiftRightFrom ((B ++ [r]).map g.D) 0 (g.K r) size = shiftKeysRight (B.map g.D) (g.K r) size ++ [g.D r] := by
          have := shiftRightFrom_eq [] (B.map g.D) (g.D r) (g.K r) size
          simpa using this
        have hm : (if g.W l ≠ init ∧ skip = false then
            if size < g.K r - g.K l then
              Outcome.ok ((g.K l, init) :: (pos + size, g.W l) :: shiftRightFrom ((B ++ [r]).map g.D) 0 (g.K r) size, false)
            else .ok ((g.K l, init) :: shiftRightFrom ((B ++ [r]).map g.D) 0 (g.K r) size, false)
            else .ok (g.D l :: shiftRightFrom ((B ++ [r]).map g.D) 0 (g.K r) size, false)) = .ok (ls', b) := hm
        have hDl : g4.D l = g.D l := hd4.1
        rw [hsf, ← hd4.2] at hm
        rw [hKl, hWl] at st6
        by_cases hc : g.W l ≠ init ∧ skip = false
        · rw [if_pos hc] at hm st6
          by_cases hs : size < g.K r - g.K l
          · rw [if_pos hs] at hm st6
            cases hm
            exact ⟨rfl, _, as5, st6, by simp⟩
          · rw [if_neg hs] at hm st6
            cases hm
            exact ⟨rfl, _, as5, st6, by simp⟩
        · rw [if_neg hc] at hm st6
          cases hm
          have st7 := st6
          rw [List.map_cons, hDl] at st7
          exact ⟨rfl, _, as5, st7, by simp⟩
      · rw [if_neg h2] at hm ⊢
        refine wp_bind (wp_mono (wp_srStartP st hl pos skip) ?_)
        rintro _ h3 ⟨g3, st3, hcur, hK, hW⟩
        have hDD : g3.D = g.D := by funext a; simp [Pic.D, hK, hW]
        refine wp_bind (wp_get st3.sat ?_)
        have hstop : g3.R (.var .cur) = none → (ls', b) = (([l] ++ (B ++ [r])).map g.D, true) →
            true = b ∧ ∃ g' as', St g0 g' h3 o as' ls' X [] ∧ (b = true → as' = [l] ++ (B ++ [r])) := by
          intro hn he
          cases he
          refine ⟨rfl, g3, _, ?_, fun _ => rfl⟩
          have hv : ∀ x a, g3.R (.var x) = some a → (a ∈ [l] ++ (B ++ [r]) ∨ X a) ∧ x ∈ ([] : List Var) := by
            intro x a ha
            have hx' : x = .cur := by simpa using (st3.vars x a ha).2
            subst hx'; rw [hn] at ha; simp at ha
          exact { st3 with vars := hv }
        cases hi : insPos (([l] ++ (B ++ [r])).map g.D) pos 1 with
        | none =>
          rw [hi] at hcur hm
          rw [if_pos (by rw [hcur]; rfl)]
          cases hm
          exact wp_pure (hstop hcur rfl)
        | some i =>
          rw [hi] at hcur hm
          dsimp only at hm
          have hil := insPos_lt hi
          rw [List.length_map] at hil
          obtain ⟨c, hci⟩ : ∃ c, ([l] ++ (B ++ [r]))[i]? = some c := ⟨([l] ++ (B ++ [r]))[i], by simp⟩
          simp only [Option.bind_some, hci] at hcur
          rw [List.getElem?_map, hci] at hm
          simp only [Option.map_some, List.length_map] at hm
          have hm : (if (if skip = true ∧ g.K c = pos then i + 1 else i) < ([l] ++ (B ++ [r])).length then
            Outcome.ok (shiftRightFrom (([l] ++ (B ++ [r])).map g.D) (if skip = true ∧ g.K c = pos then i + 1 else i) (g.K r) size,
              false) else .ok (([l] ++ (B ++ [r])).map g.D, true)) = .ok (ls', b) := hm
          -- the position from which leaves are shifted
          have hcur' : g3.R (.var .cur) = ([l] ++ (B ++ [r]))[if skip = true ∧ g.K c = pos then i + 1 else i]? := by
            rw [hcur]
            by_cases hs : skip = true ∧ g.K c = pos
            · rw [if_pos hs, if_pos hs]
            · rw [if_neg hs, if_neg hs, hci]
          have hi1 : 1 ≤ (if skip = true ∧ g.K c = pos then i + 1 else i) := by split <;> omega
          generalize (if skip = true ∧ g.K c = pos then i + 1 else i) = i' at hm hcur' hi1
          by_cases hi' : i' < ([l] ++ (B ++ [r])).length
          · rw [if_pos hi'] at hm
            obtain ⟨c', hc'⟩ : ∃ c', ([l] ++ (B ++ [r]))[i']? = some c' := ⟨([l] ++ (B ++ [r]))[i'], by simp⟩
            rw [hc'] at hcur'
            rw [if_neg (by rw [hcur']; simp)]
            obtain ⟨A, T, hAT, rfl⟩ := split_at hc'
            obtain ⟨B', hB'⟩ : ∃ B', c' :: T = B' ++ [r] := by
              rcases nil_or_snoc (c' :: T) with h | ⟨B', r', h⟩
              · simp at h
              · refine ⟨B', ?_⟩
                rw [h]
                have := hr
                rw [hAT, h] at this
                simp [List.getLast?_append] at this
                rw [this]
            have hA : A ≠ [] := by
              rintro rfl; simp at hi1
            have st3' := st3
            rw [hAT, hB'] at st3'
            refine wp_bind (wp_mono (wp_shiftFromP env hA st3' (by rw [hcur', ← hB']; rfl) size) ?_)
            rintro _ h4 ⟨g4, B4, st4⟩
            refine wp_bind (wp_dropVar st4 (vs' := []) (by simp) fun h5 st5 => wp_pure ?_)
            have := shiftRightFrom_eq (A.map g.D) (B'.map g.D) (g.D r) (g.K r) size
            rw [List.length_map] at this
            rw [hAT, hB', show (A ++ (B' ++ [r])).map g.D = A.map g.D ++ (B'.map g.D ++ [g.D r]) by simp, this] at hm
            cases hm
            rw [hDD, hK] at st5
            exact ⟨rfl, _, _, st5, by simp⟩
          · rw [if_neg hi'] at hm
            have hcn : g3.R (.var .cur) = none := by rw [hcur', List.getElem?_eq_none (by omega)]
            rw [if_pos hcn]
            cases hm
            exact wp_pure (hstop hcn rfl)

end
end Mdds.FST.Mem
