import Verif.Model.ArtHeapIter
import Verif.Lemmas.ArtIter
import Verif.Lemmas.ArtHeapCalls
import Verif.Lemmas.ArtHeapPtr
/-
The iterators over the arrays of nodes do what the iterators over the tree do.
-/
set_option linter.unusedSimpArgs false
set_option linter.unusedVariables false
namespace CRoaring
open Spec

section
variable {α β : Type}

/-! ### Children of a node, by the layout alone -/

def Indexed.map (f : α → β) (d : Indexed α) : Indexed β := ⟨d.index, d.chunk, f d.child⟩

theorem childAtKs_map (f : α → β) (ks : List (Nat × α)) (i : Nat) : childAtKs (mapKs f ks) i = (childAtKs ks i).map (Indexed.map f) := by
  unfold childAtKs mapKs
  rw [List.getElem?_map]
  cases ks[i]? <;> rfl

theorem Node.childAt_map (f : α → β) (n : Node α) (i : Nat) : (n.map f).childAt i = (n.childAt i).map (Indexed.map f) := by
  cases n with
  | n4 ks => exact childAtKs_map f ks i
  | n16 ks => exact childAtKs_map f ks i
  | n48 n =>
    show N48.childAt _ i = (N48.childAt n i).map _
    unfold N48.childAt
    by_cases h : i ≥ 256
    · rw [if_pos h, if_pos h]; rfl
    · rw [if_neg h, if_neg h]
      show Option.map _ ((n.children.map (Option.map f)).getD _ none) = _
      rw [getD_map_opt]
      show Option.map _ (Option.map f (n.children.getD (n.keys.getD i NODE48_EMPTY) none)) = _
      cases n.children.getD (n.keys.getD i NODE48_EMPTY) none <;> rfl
  | n256 n =>
    show N256.childAt _ i = (N256.childAt n i).map _
    unfold N256.childAt
    by_cases h : i ≥ 256
    · rw [if_pos h, if_pos h]; rfl
    · rw [if_neg h, if_neg h]
      show Option.map _ ((n.children.map (Option.map f)).getD _ none) = _
      rw [getD_map_opt]
      cases n.children.getD i none <;> rfl

theorem findSome_map {γ : Type} (f : α → β) (l : List Nat) (g : Nat → Option α) (k : Nat → Option β) (h : ∀ i, k i = (g i).map f) :
    l.findSome? k = (l.findSome? g).map f := by
  induction l with
  | nil => rfl
  | cons a t ih =>
    rw [List.findSome?_cons, List.findSome?_cons, h]
    cases g a with
    | none => exact ih
    | some x => rfl

theorem n48fun_map (f : α → β) (n : N48 α) (i : Nat) :
    (if (n.map f).keys.getD i NODE48_EMPTY ≠ NODE48_EMPTY
      then ((n.map f).children.getD ((n.map f).keys.getD i NODE48_EMPTY) none).map (fun c => (⟨i, i, c⟩ : Indexed β)) else none) =
    (if n.keys.getD i NODE48_EMPTY ≠ NODE48_EMPTY
      then (n.children.getD (n.keys.getD i NODE48_EMPTY) none).map (fun c => (⟨i, i, c⟩ : Indexed α)) else none).map (Indexed.map f) := by
  show (if n.keys.getD i NODE48_EMPTY ≠ NODE48_EMPTY
      then ((n.children.map (Option.map f)).getD (n.keys.getD i NODE48_EMPTY) none).map (fun c => (⟨i, i, c⟩ : Indexed β)) else none) = _
  rw [getD_map_opt]
  by_cases h : n.keys.getD i NODE48_EMPTY ≠ NODE48_EMPTY
  · rw [if_pos h, if_pos h]
    cases n.children.getD (n.keys.getD i NODE48_EMPTY) none <;> rfl
  · rw [if_neg h, if_neg h]; rfl

theorem n256fun_map (f : α → β) (n : N256 α) (i : Nat) :
    ((n.map f).children.getD i none).map (fun c => (⟨i, i, c⟩ : Indexed β)) =
    ((n.children.getD i none).map (fun c => (⟨i, i, c⟩ : Indexed α))).map (Indexed.map f) := by
  show ((n.children.map (Option.map f)).getD i none).map (fun c => (⟨i, i, c⟩ : Indexed β)) = _
  rw [getD_map_opt]
  cases n.children.getD i none <;> rfl

theorem Node.nextFrom_map (f : α → β) (n : Node α) (s : Nat) : (n.map f).nextFrom s = (n.nextFrom s).map (Indexed.map f) := by
  have hks : ∀ ks : List (Nat × α), (if s ≥ (mapKs f ks).length then none else childAtKs (mapKs f ks) s) =
      (if s ≥ ks.length then none else childAtKs ks s).map (Indexed.map f) := by
    intro ks
    rw [mapKs_length, childAtKs_map]
    by_cases h : s ≥ ks.length
    · rw [if_pos h, if_pos h]; rfl
    · rw [if_neg h, if_neg h]
  cases n with
  | n4 ks => exact hks ks
  | n16 ks => exact hks ks
  | n48 n => exact findSome_map (γ := Unit) (Indexed.map f) _ _ _ (n48fun_map f n)
  | n256 n => exact findSome_map (γ := Unit) (Indexed.map f) _ _ _ (n256fun_map f n)

theorem Node.prevFrom_map (f : α → β) (n : Node α) (s : Nat) : (n.map f).prevFrom s = (n.prevFrom s).map (Indexed.map f) := by
  have hks : ∀ ks : List (Nat × α),
      (if (if s > (mapKs f ks).length then (mapKs f ks).length else s) = 0 then none
        else childAtKs (mapKs f ks) ((if s > (mapKs f ks).length then (mapKs f ks).length else s) - 1)) =
      (if (if s > ks.length then ks.length else s) = 0 then none
        else childAtKs ks ((if s > ks.length then ks.length else s) - 1)).map (Indexed.map f) := by
    intro ks
    rw [mapKs_length, childAtKs_map]
    generalize (if s > ks.length then ks.length else s) = z
    by_cases h : z = 0
    · rw [if_pos h, if_pos h]; rfl
    · rw [if_neg h, if_neg h]
  cases n with
  | n4 ks => exact hks ks
  | n16 ks => exact hks ks
  | n48 n => exact findSome_map (γ := Unit) (Indexed.map f) _ _ _ (n48fun_map f n)
  | n256 n => exact findSome_map (γ := Unit) (Indexed.map f) _ _ _ (n256fun_map f n)

theorem lowerBoundKs_map (f : α → β) (key : Nat) (ks : List (Nat × α)) (i : Nat) :
    lowerBoundKs key i (mapKs f ks) = (lowerBoundKs key i ks).map (Indexed.map f) := by
  induction ks generalizing i with
  | nil => rfl
  | cons p t ih =>
    obtain ⟨k, c⟩ := p
    show lowerBoundKs key i ((k, f c) :: mapKs f t) = _
    simp only [lowerBoundKs]
    by_cases h : k ≥ key
    · rw [if_pos h, if_pos h]; rfl
    · rw [if_neg h, if_neg h]; exact ih _

theorem Node.lowerBound_map (f : α → β) (n : Node α) (k : Nat) : (n.map f).lowerBound k = (n.lowerBound k).map (Indexed.map f) := by
  cases n with
  | n4 ks => exact lowerBoundKs_map f k ks 0
  | n16 ks => exact lowerBoundKs_map f k ks 0
  | n48 n => exact findSome_map (γ := Unit) (Indexed.map f) _ _ _ (n48fun_map f n)
  | n256 n => exact findSome_map (γ := Unit) (Indexed.map f) _ _ _ (n256fun_map f n)

/-- The same position and byte in two nodes, or no child in both. -/
def SameIdx (x : Option (Indexed α)) (y : Option (Indexed β)) : Prop :=
  (x = none ∧ y = none) ∨ ∃ i k a b, x = some ⟨i, k, a⟩ ∧ y = some ⟨i, k, b⟩

theorem sameIdx_of {x : Option (Indexed α)} {y : Option (Indexed β)}
    (h : x.map (Indexed.map (fun _ => ())) = y.map (Indexed.map (fun _ => ()))) : SameIdx x y := by
  cases x with
  | none => cases y with
    | none => exact .inl ⟨rfl, rfl⟩
    | some y => cases h
  | some x => cases y with
    | none => cases h
    | some y =>
      obtain ⟨i, k, a⟩ := x
      obtain ⟨j, l, b⟩ := y
      simp only [Option.map_some, Indexed.map, Option.some.injEq, Indexed.mk.injEq] at h
      obtain ⟨rfl, rfl, -⟩ := h
      exact .inr ⟨i, k, a, b, rfl, rfl⟩

theorem shape_childAt {n : Node α} {m : Node β} (h : n.shape = m.shape) (i : Nat) : SameIdx (n.childAt i) (m.childAt i) :=
  sameIdx_of (by rw [← Node.childAt_map, ← Node.childAt_map]; exact congrArg (fun z => Node.childAt z i) h)
theorem shape_next {n : Node α} {m : Node β} (h : n.shape = m.shape) (i : Nat) : SameIdx (n.nextFrom i) (m.nextFrom i) :=
  sameIdx_of (by rw [← Node.nextFrom_map, ← Node.nextFrom_map]; exact congrArg (fun z => Node.nextFrom z i) h)
theorem shape_prev {n : Node α} {m : Node β} (h : n.shape = m.shape) (i : Nat) : SameIdx (n.prevFrom i) (m.prevFrom i) :=
  sameIdx_of (by rw [← Node.prevFrom_map, ← Node.prevFrom_map]; exact congrArg (fun z => Node.prevFrom z i) h)
theorem shape_lower {n : Node α} {m : Node β} (h : n.shape = m.shape) (i : Nat) : SameIdx (n.lowerBound i) (m.lowerBound i) :=
  sameIdx_of (by rw [← Node.lowerBound_map, ← Node.lowerBound_map]; exact congrArg (fun z => Node.lowerBound z i) h)

theorem scan_childAt {n : Node α} (hd : ∀ i c, n.find i = some c → n.childAt i = some ⟨i, i, c⟩) {l : List Nat} {d : Indexed α}
    (h : l.findSome? (fun i => (n.find i).map (fun c => (⟨i, i, c⟩ : Indexed α))) = some d) : n.childAt d.index = some d := by
  obtain ⟨i, -, hi⟩ := List.exists_of_findSome?_eq_some h
  simp only [Option.map_eq_some_iff] at hi
  obtain ⟨c, hc, rfl⟩ := hi
  exact hd i c hc

theorem KOk.next_childAt {n : Node α} (h : KOk n) {s : Nat} {d : Indexed α} (hd : n.nextFrom s = some d) : n.childAt d.index = some d := by
  have hks : ∀ ks : List (Nat × α), (if s ≥ ks.length then none else childAtKs ks s) = some d → childAtKs ks d.index = some d := by
    intro ks h
    split at h
    · cases h
    · rw [(childAtKs_some h).1]; exact h
  match n, h with
  | .n4 ks, h => exact hks ks hd
  | .n16 ks, h => exact hks ks hd
  | .n48 n, h =>
    simp only [Node.nextFrom] at hd
    rw [N48.scanUp_eq] at hd
    exact scan_childAt (n := .n48 n) (fun i c => N48.childAt_of_find h.1) hd
  | .n256 n, h => exact scan_childAt (n := .n256 n) (fun i c => N256.childAt_of_find h.1) hd

theorem KOk.prev_childAt {n : Node α} (h : KOk n) {s : Nat} {d : Indexed α} (hd : n.prevFrom s = some d) : n.childAt d.index = some d := by
  have hks : ∀ (ks : List (Nat × α)) (z : Nat), (if z = 0 then none else childAtKs ks (z - 1)) = some d → childAtKs ks d.index = some d := by
    intro ks z h
    split at h
    · cases h
    · rw [(childAtKs_some h).1]; exact h
  match n, h with
  | .n4 ks, h => exact hks ks _ hd
  | .n16 ks, h => exact hks ks _ hd
  | .n48 n, h =>
    simp only [Node.prevFrom] at hd
    rw [N48.scanDown_eq] at hd
    exact scan_childAt (n := .n48 n) (fun i c => N48.childAt_of_find h.1) hd
  | .n256 n, h => exact scan_childAt (n := .n256 n) (fun i c => N256.childAt_of_find h.1) hd

theorem KOk.lower_childAt {n : Node α} (h : KOk n) {s : Nat} {d : Indexed α} (hd : n.lowerBound s = some d) : n.childAt d.index = some d := by
  have := h.lowerBound s
  rw [hd] at this
  exact this.2.2.1

theorem KOk.childAt_lt {n : Node α} (h : KOk n) {i : Nat} {d : Indexed α} (hd : n.childAt i = some d) : i < 256 := by
  match n, h with
  | .n4 ks, h =>
    obtain ⟨-, h2⟩ := childAtKs_some hd
    have := (List.getElem?_eq_some_iff.1 h2).1
    have := h.2.2; omega
  | .n16 ks, h =>
    obtain ⟨-, h2⟩ := childAtKs_some hd
    have := (List.getElem?_eq_some_iff.1 h2).1
    have := h.2.2; omega
  | .n48 n, h =>
    simp only [Node.childAt, N48.childAt] at hd
    split at hd
    · cases hd
    · omega
  | .n256 n, h =>
    simp only [Node.childAt, N256.childAt] at hd
    split at hd
    · cases hd
    · omega

end

section
variable {V : Type}

/-! ### The frames of an iterator -/

/-- The frames lead from the root `r` to the node at `s`, over the positions `st` (the last first); `j` is the position in the last frame. -/
inductive HStk (H : ArtHeap V) (r : ArtRef) (fr : List HFrame) : List Nat → ArtRef → Nat → Prop
  | nil {j : Nat} (h : fr[0]? = some ⟨some r, j⟩) : HStk H r fr [] r j
  | cons {st : List Nat} {p : ArtRef} {i j : Nat} {pfx : List Nat} {n : Node ArtRef} {d : Indexed ArtRef} (h : HStk H r fr st p i)
      (hg : H.get p = some (.inner pfx n)) (hd : n.childAt i = some d) (hf : fr[st.length + 1]? = some ⟨some d.child, j⟩) :
      HStk H r fr (i :: st) d.child j

theorem HStk.top {H : ArtHeap V} {r : ArtRef} {fr : List HFrame} {st : List Nat} {s : ArtRef} {j : Nat} (h : HStk H r fr st s j) :
    fr[st.length]? = some ⟨some s, j⟩ := by
  cases h with
  | nil h => exact h
  | cons _ _ _ hf => exact hf

theorem HStk.bottom {H : ArtHeap V} {r : ArtRef} {fr : List HFrame} {st : List Nat} {s : ArtRef} {j : Nat} (h : HStk H r fr st s j) :
    ∃ i, fr[0]? = some ⟨some r, i⟩ := by
  induction h with
  | nil h => exact ⟨_, h⟩
  | cons _ _ _ _ ih => exact ih

theorem HStk.agree {H : ArtHeap V} {r : ArtRef} {fr fr' : List HFrame} {st : List Nat} {s : ArtRef} {j : Nat} (h : HStk H r fr st s j)
    (e : ∀ k, k ≤ st.length → fr'[k]? = fr[k]?) : HStk H r fr' st s j := by
  induction h with
  | nil h => exact .nil (by rw [e 0 (Nat.le_refl _)]; exact h)
  | cons _ hg hd hf ih =>
    exact .cons (ih (fun k hk => e k (by simp only [List.length_cons]; omega))) hg hd (by rw [e _ (by simp)]; exact hf)

/-- The position of the last frame is set. -/
theorem HStk.setTop {H : ArtHeap V} {r : ArtRef} {fr : List HFrame} {st : List Nat} {s : ArtRef} {j : Nat} (h : HStk H r fr st s j) (i : Nat) :
    HStk H r (fr.set st.length ⟨some s, i⟩) st s i := by
  have hl : st.length < fr.length := (List.getElem?_eq_some_iff.1 h.top).1
  cases h with
  | nil h => exact .nil (List.getElem?_set_self hl)
  | cons h hg hd hf =>
    refine .cons (h.agree (fun k hk => ?_)) hg hd (List.getElem?_set_self hl)
    rw [List.length_cons, List.getElem?_set_ne (by omega)]

theorem HStk.push {H : ArtHeap V} {r : ArtRef} {fr : List HFrame} {st : List Nat} {p : ArtRef} {i : Nat} {pfx : List Nat} {n : Node ArtRef}
    {d : Indexed ArtRef} (h : HStk H r fr st p i) (hg : H.get p = some (.inner pfx n)) (hd : n.childAt i = some d) (hl : st.length + 1 < fr.length)
    (j : Nat) : HStk H r (fr.set (st.length + 1) ⟨some d.child, j⟩) (i :: st) d.child j := by
  refine .cons (h.agree (fun k hk => ?_)) hg hd (by rw [List.getElem?_set_self hl])
  rw [List.getElem?_set_ne (by omega)]

/-- What the frames lead to in the tree. -/
theorem HStk.reach {H : ArtHeap V} {r : ArtRef} {root : Art V} {F : ArtRef → Prop} (hrep : HRep H r root F) (hr : Inv [] root) {fr : List HFrame}
    {st : List Nat} {s : ArtRef} {j : Nat} (h : HStk H r fr st s j) :
    ∃ path t F', Reach root st path t ∧ HRep H s t F' ∧ ∀ x, F' x → F x := by
  induction h with
  | nil h => exact ⟨[], root, F, .nil, hrep, fun _ h => h⟩
  | @cons st p i j pfx n d h hg hd hf ih =>
    obtain ⟨path, t, F', h1, h2, h3⟩ := ih
    cases h2 with
    | leaf ht hg' _ => rw [hg] at hg'; cases hg'
    | @inner _ pfx' nr n' Fs _ ht hg' hk hs hc he hdj hr' hF =>
      rw [hg] at hg'
      cases hg'
      rcases shape_childAt hs i with ⟨e1, e2⟩ | ⟨a, k, x, y, e1, e2⟩
      · rw [hd] at e1; cases e1
      · rw [hd] at e1; cases e1
        have hi := h1.inv hr
        cases hi with
        | inner hn hl hb hcc =>
          refine ⟨_, _, Fs k, .cons h1 e2, hc k x y (hk.childAt hd).2 (hn.childAt e2).2, fun z hz => h3 z ((hF z).2 (Or.inr ⟨k, hz⟩))⟩

/-- Where a search may start or stand: at the root, whatever the first frame says, or at the end of frames. -/
def HPos (H : ArtHeap V) (r : ArtRef) (fr : List HFrame) (st : List Nat) (s : ArtRef) : Prop :=
  (st = [] ∧ s = r) ∨ ∃ j, HStk H r fr st s j

theorem HPos.reach {H : ArtHeap V} {r : ArtRef} {root : Art V} {F : ArtRef → Prop} (hrep : HRep H r root F) (hr : Inv [] root) {fr : List HFrame}
    {st : List Nat} {s : ArtRef} (h : HPos H r fr st s) : ∃ path t F', Reach root st path t ∧ HRep H s t F' ∧ ∀ x, F' x → F x := by
  rcases h with ⟨rfl, rfl⟩ | ⟨j, h⟩
  · exact ⟨[], root, F, .nil, hrep, fun _ h => h⟩
  · exact h.reach hrep hr

theorem HPos.setTop {H : ArtHeap V} {r : ArtRef} {fr : List HFrame} {st : List Nat} {s : ArtRef} (h : HPos H r fr st s) (hl : st.length < fr.length)
    (i : Nat) : HStk H r (fr.set st.length ⟨some s, i⟩) st s i := by
  rcases h with ⟨rfl, rfl⟩ | ⟨j, h⟩
  · exact .nil (List.getElem?_set_self hl)
  · exact h.setTop i

theorem Reach.len {root : Art V} (hr : Inv [] root) {st path : List Nat} {t : Art V} (h : Reach root st path t) : st.length ≤ path.length := by
  induction h with
  | nil => exact Nat.le_refl _
  | cons h hd ih => simp only [List.length_cons, List.length_append, List.length_singleton, List.length_nil]; omega

theorem Inv.path_le {path : List Nat} {t : Art V} (h : Inv path t) : path.length ≤ 6 := by
  cases h with
  | leaf hk hp => have := hp.length_le; rw [hk.len] at this; exact this
  | inner hn hl => omega

/-! ### Single steps -/

theorem setCur_ok {it : HIt} (h : it.frame < it.frames.length) (f : HFrame) : it.setCur f = .ok { it with frames := it.frames.set it.frame f } := by
  unfold HIt.setCur; rw [if_pos h]

theorem ref_ok {it : HIt} {s : ArtRef} {j : Nat} (h : it.frames[it.frame]? = some ⟨some s, j⟩) : it.ref = .ok s := by
  unfold HIt.ref HIt.cur; rw [h]; rfl

theorem cur_ok {it : HIt} {f : HFrame} (h : it.frames[it.frame]? = some f) : it.cur = .ok f := by
  unfold HIt.cur; rw [h]

/-- Moving down to the child at a position of the node that the search stands at. -/
theorem down_ok {H : ArtHeap V} {r s : ArtRef} {it : HIt} {st : List Nat} {pfx : List Nat} {n : Node ArtRef} {d : Indexed ArtRef}
    (hp : HPos H r it.frames st s) (hfr : it.frame = st.length) (hlen : it.frames.length = 7) (hst : st.length < 6) (hg : H.get s = some (.inner pfx n))
    (ht : n.ty = s.ty) (hk : KOk n) (hd : n.childAt d.index = some d) (hdep : it.depth + (pfx.length + 1) ≤ 6) :
    ∃ it', it.down H s d.index = .ok it' ∧ it'.frame = st.length + 1 ∧ it'.frames.length = 7 ∧ it'.depth = it.depth + (pfx.length + 1) ∧
      it'.key = it.key ∧ it'.value = it.value ∧ ∃ j, HStk H r it'.frames (d.index :: st) d.child j := by
  have h256 := hk.childAt_lt hd
  have em : d.index % 256 = d.index := Nat.mod_eq_of_lt h256
  unfold HIt.down
  rw [setCur_ok (by omega), ok_bind]
  simp only
  rw [peekInner_ok (deref_valid H s) hg ht, ok_bind]
  simp only
  rw [em, hd]
  simp only
  have hf : ∃ f, (it.frames.set it.frame ⟨some s, d.index⟩)[it.frame + 1]? = some f :=
    ⟨_, List.getElem?_eq_getElem (by rw [List.length_set]; omega)⟩
  obtain ⟨f, hf⟩ := hf
  rw [cur_ok (it := { it with frames := it.frames.set it.frame ⟨some s, d.index⟩, frame := it.frame + 1 }) hf, ok_bind]
  rw [setCur_ok (by show it.frame + 1 < (it.frames.set it.frame _).length; rw [List.length_set]; omega), ok_bind]
  refine ⟨_, rfl, by simp only; omega, by simp [hlen], ?_, rfl, rfl, f.idx, ?_⟩
  · simp only; exact Nat.mod_eq_of_lt (by omega)
  · simp only
    rw [hfr]
    exact (hp.setTop (by omega) d.index).push hg hd (by rw [List.length_set]; omega) _

theorem up_zero {H : ArtHeap V} {it : HIt} (h : it.frame = 0) : it.up H = .ok none := by
  unfold HIt.up; rw [if_pos h]

/-- Moving up. -/
theorem up_ok {H : ArtHeap V} {r p : ArtRef} {it : HIt} {st : List Nat} {i : Nat} {pfx : List Nat} {n : Node ArtRef}
    (hp : HStk H r it.frames st p i) (hfr : it.frame = st.length + 1) (hg : H.get p = some (.inner pfx n)) (ht : n.ty = p.ty)
    (hdep : pfx.length + 1 ≤ it.depth) (hdep6 : it.depth ≤ 6) :
    it.up H = .ok (some { it with frame := st.length, depth := it.depth - (pfx.length + 1) }) := by
  unfold HIt.up
  rw [if_neg (by omega)]
  have e : it.frame - 1 = st.length := by omega
  simp only
  rw [e, ref_ok (it := { it with frame := st.length }) hp.top, ok_bind, peekInner_ok (deref_valid H p) hg ht, ok_bind]
  simp only
  congr 3
  omega

theorem validLoc_ok {H : ArtHeap V} {r s : ArtRef} {it : HIt} {st : List Nat} {k : List Nat} {v : V}
    (hp : HPos H r it.frames st s) (hfr : it.frame = st.length) (hlen : it.frames.length = 7) (hst : st.length < 7) (hg : H.get s = some (.leaf k v)) :
    ∃ it', it.validLoc H s = .ok it' ∧ it'.frame = st.length ∧ it'.frames.length = 7 ∧ it'.depth = it.depth ∧ it'.key = k ∧
      it'.value = some (H.deref s) ∧ HStk H r it'.frames st s 0 := by
  unfold HIt.validLoc
  rw [setCur_ok (by omega), ok_bind, peekLeaf_ok (deref_valid H s) hg, ok_bind]
  refine ⟨_, rfl, hfr, by simp [hlen], rfl, rfl, rfl, ?_⟩
  simp only [hfr]
  exact hp.setTop (by omega) 0

/-! ### The iterators over the arrays and over the tree -/

theorem Reach.unique {root : Art V} {st p p' : List Nat} {t t' : Art V} (h : Reach root st p t) (h' : Reach root st p' t') : p = p' ∧ t = t' := by
  induction h generalizing p' t' with
  | nil => obtain ⟨rfl, rfl⟩ := h'.nil_inv; exact ⟨rfl, rfl⟩
  | cons h hd ih =>
    obtain ⟨q, pf, n, d, h1, h2, rfl, rfl⟩ := h'.cons_inv
    obtain ⟨rfl, e⟩ := ih h1
    cases e
    rw [hd] at h2
    cases h2
    exact ⟨rfl, rfl⟩

theorem HPos.inner {H : ArtHeap V} {r : ArtRef} {root : Art V} {F : ArtRef → Prop} (hrep : HRep H r root F) (hr : Inv [] root) {fr : List HFrame}
    {st : List Nat} {s : ArtRef} (h : HPos H r fr st s) {path pfx : List Nat} {n : Node (Art V)} (hR : Reach root st path (.inner pfx n)) :
    ∃ nr, H.get s = some (.inner pfx nr) ∧ nr.ty = s.ty ∧ KOk nr ∧ nr.shape = n.shape := by
  obtain ⟨p', t', F', h1, h2, -⟩ := h.reach hrep hr
  obtain ⟨rfl, rfl⟩ := hR.unique h1
  cases h2 with
  | inner ht hg hk hs hc he hd hr hF => exact ⟨_, hg, ht, hk, hs⟩

theorem HPos.leaf {H : ArtHeap V} {r : ArtRef} {root : Art V} {F : ArtRef → Prop} (hrep : HRep H r root F) (hr : Inv [] root) {fr : List HFrame}
    {st : List Nat} {s : ArtRef} (h : HPos H r fr st s) {path k : List Nat} {v : V} (hR : Reach root st path (.leaf k v)) :
    s.ty = .leaf ∧ H.get s = some (.leaf k v) := by
  obtain ⟨p', t', F', h1, h2, -⟩ := h.reach hrep hr
  obtain ⟨rfl, rfl⟩ := hR.unique h1
  cases h2 with
  | leaf ht hg hF => exact ⟨ht, hg⟩

/-- The first frame is at the root. -/
def Bot (r : ArtRef) (fr : List HFrame) : Prop := ∃ i, fr[0]? = some ⟨some r, i⟩

/-- The iterator `hit` stands at the node `s`, where the iterator `it` stands. -/
structure HAt (H : ArtHeap V) (r : ArtRef) (B : Prop) (it : ArtIt V) (hit : HIt) (s : ArtRef) : Prop where
  pos : HPos H r hit.frames it.stack s
  frame : hit.frame = it.stack.length
  len : hit.frames.length = 7
  depth : hit.depth = it.depth
  key : hit.key = it.key
  bot : B → Bot r hit.frames

/-- The iterator `hit` stands on the leaf on which `it` stands, or nowhere as `it`. -/
def IRes (H : ArtHeap V) (r : ArtRef) (B : Prop) (it : ArtIt V) (hit : HIt) : Prop :=
  hit.frames.length = 7 ∧ hit.key = it.key ∧ (B → Bot r hit.frames) ∧
  match it.value with
  | none => hit.value = none
  | some v => ∃ s j, HStk H r hit.frames it.stack s j ∧ hit.frame = it.stack.length ∧ hit.depth = it.depth ∧ s.ty = .leaf ∧
      H.get s = some (.leaf it.key v) ∧ hit.value = some (H.deref s)

theorem ires_invalid {H : ArtHeap V} {r : ArtRef} {B : Prop} {it : ArtIt V} {hit : HIt} {s : ArtRef} (h : HAt H r B it hit s) :
    IRes H r B (itInvalid it) hit.invalidLoc := ⟨h.len, rfl, h.bot, rfl⟩

theorem ires_valid {H : ArtHeap V} {r : ArtRef} {B : Prop} {it : ArtIt V} {hit : HIt} {s : ArtRef} (h : HAt H r B it hit s) {k : List Nat} {v : V}
    (hst : it.stack.length < 7) (ht : s.ty = .leaf) (hg : H.get s = some (.leaf k v)) :
    ∃ hit', hit.validLoc H s = .ok hit' ∧ IRes H r B (itValid it k v) hit' := by
  obtain ⟨hit', h1, h2, h3, h4, h5, h6, h7⟩ := validLoc_ok h.pos h.frame h.len hst hg
  exact ⟨hit', h1, h3, h5, fun _ => h7.bottom, s, 0, h7, h2, by rw [h4]; exact h.depth, ht, hg, h6⟩

theorem ires_init {H : ArtHeap V} {r : ArtRef} {B : Prop} {it : ArtIt V} {hit : HIt} {s : ArtRef} (h : HAt H r B it hit s) {k : List Nat} {v : V}
    (hst : it.stack.length < 7) (ht : s.ty = .leaf) (hg : H.get s = some (.leaf k v)) :
    ∃ hit', hit.initLeaf H s = .ok hit' ∧ IRes H r B (itValid it k v) hit' := by
  unfold HIt.initLeaf
  rw [setCur_ok (by rw [h.frame, h.len]; exact hst), ok_bind]
  have hs := h.pos.setTop (by rw [h.len]; exact hst) 0
  rw [← h.frame] at hs
  refine ires_valid (it := it) (hit := { hit with frames := hit.frames.set hit.frame ⟨some s, 0⟩ }) ⟨.inr ⟨0, hs⟩, h.frame, by simp [h.len], h.depth, h.key, fun _ => hs.bottom⟩ hst ht hg

theorem Reach.stack_lt {root : Art V} (hr : Inv [] root) {st path : List Nat} {t : Art V} (h : Reach root st path t) : st.length < 7 := by
  have := h.len hr
  have := (h.inv hr).path_le
  omega

/-- One step down, over the children at the same position. -/
theorem down_sim {H : ArtHeap V} {r : ArtRef} {root : Art V} (hr : Inv [] root) {B : Prop} {it : ArtIt V} {hit : HIt} {s : ArtRef}
    (h : HAt H r B it hit s) {path pfx : List Nat} {n : Node (Art V)} (hR : Reach root it.stack path (.inner pfx n)) (hd : it.depth = path.length)
    {nr : Node ArtRef} (hg : H.get s = some (.inner pfx nr)) (ht : nr.ty = s.ty) (hk : KOk nr) {i k : Nat} {x : ArtRef} {y : Art V}
    (hx : nr.childAt i = some ⟨i, k, x⟩) (hy : n.childAt i = some ⟨i, k, y⟩) :
    ∃ hit', hit.down H s i = .ok hit' ∧ HAt H r B (itDown it pfx i) hit' x ∧ Reach root (itDown it pfx i).stack (path ++ pfx ++ [k]) y ∧
      (itDown it pfx i).depth = (path ++ pfx ++ [k]).length := by
  have hI := hR.inv hr
  have hl : path.length + pfx.length < 6 := by cases hI with | inner hn hl hb hc => exact hl
  have hst := hR.len hr
  obtain ⟨hit', h1, h2, h3, h4, h5, h6, j, h7⟩ := down_ok (d := ⟨i, k, x⟩) h.pos h.frame h.len (by omega) hg ht hk hx (by rw [h.depth, hd]; omega)
  refine ⟨hit', h1, ⟨.inr ⟨j, h7⟩, h2, h3, by rw [h4, h.depth]; rfl, by rw [h5]; exact h.key, fun _ => h7.bottom⟩, .cons hR hy, ?_⟩
  show it.depth + (pfx.length + 1) = _
  simp only [List.length_append, List.length_singleton]; omega

theorem nodeInit_leaf_ok {H : ArtHeap V} {first : Bool} {s : ArtRef} {hit : HIt} (hs : s.ty = .leaf) (fuel : Nat) :
    HIt.nodeInit H first fuel s hit = hit.initLeaf H s := by
  cases fuel <;> simp only [HIt.nodeInit] <;> rw [if_pos hs]

theorem nodeInit_sim {H : ArtHeap V} {r : ArtRef} {root : Art V} {F : ArtRef → Prop} (hrep : HRep H r root F) (hr : Inv [] root) {B : Prop} (first : Bool)
    (fuel : Nat) {t : Art V} {it : ArtIt V} {hit : HIt} {s : ArtRef} {path : List Nat} (h : HAt H r B it hit s) (hR : Reach root it.stack path t)
    (hd : it.depth = path.length) (hf : 6 ≤ fuel + path.length) :
    ∃ hit', HIt.nodeInit H first fuel s hit = .ok hit' ∧ IRes H r B (nodeInitIterator first fuel t it) hit' := by
  induction fuel generalizing t it hit s path with
  | zero =>
    cases t with
    | leaf k v =>
      obtain ⟨h1, h2⟩ := h.pos.leaf hrep hr hR
      rw [nodeInit_leaf_ok h1]
      exact ires_init h (hR.stack_lt hr) h1 h2
    | inner pfx n =>
      have hI := hR.inv hr
      cases hI with
      | inner hn hl hb hc => omega
  | succ fuel ih =>
    cases t with
    | leaf k v =>
      obtain ⟨h1, h2⟩ := h.pos.leaf hrep hr hR
      rw [nodeInit_leaf_ok h1]
      exact ires_init h (hR.stack_lt hr) h1 h2
    | inner pfx n =>
      obtain ⟨nr, hg, ht, hk, hs⟩ := h.pos.inner hrep hr hR
      have hI := hR.inv hr
      have hv : ∃ v, AtLeaf root (nodeInitIterator first (fuel + 1) (.inner pfx n) it) v := by
        cases first with
        | true => obtain ⟨v, h1, -⟩ := nodeInit_first hr (fuel + 1) hR hd hf; exact ⟨v, h1⟩
        | false => obtain ⟨v, h1, -⟩ := nodeInit_last hr (fuel + 1) hR hd hf; exact ⟨v, h1⟩
      cases hI with
      | inner hn hl hb hc =>
        have key : SameIdx (if first then nr.nextFrom 0 else nr.prevFrom 256) (if first then n.nextFrom 0 else n.prevFrom 256) := by
          cases first with
          | true => exact shape_next hs 0
          | false => exact shape_prev hs 256
        have hc1 : ∀ d, (if first then nr.nextFrom 0 else nr.prevFrom 256) = some d → nr.childAt d.index = some d := by
          cases first with
          | true => exact fun d hd => hk.next_childAt hd
          | false => exact fun d hd => hk.prev_childAt hd
        have hc2 : ∀ d, (if first then n.nextFrom 0 else n.prevFrom 256) = some d → n.childAt d.index = some d := by
          cases first with
          | true => exact fun d hd => hn.next_childAt hd
          | false => exact fun d hd => hn.prev_childAt hd
        simp only [HIt.nodeInit]
        simp only [nodeInitIterator] at hv ⊢
        rw [if_neg (by rw [← ht]; exact ty_ne_leaf nr), peekInner_ok (deref_valid H s) hg ht, ok_bind]
        simp only
        generalize (if first then nr.nextFrom 0 else nr.prevFrom 256) = o1 at key hc1 ⊢
        generalize (if first then n.nextFrom 0 else n.prevFrom 256) = o2 at key hc2 hv ⊢
        rcases key with ⟨rfl, rfl⟩ | ⟨i, k, x, y, rfl, rfl⟩
        · obtain ⟨v, hv⟩ := hv
          have := hv.value
          cases this
        · simp only
          obtain ⟨hit', h1, h2, h3, h4⟩ := down_sim hr h hR hd hg ht hk (hc1 _ rfl) (hc2 _ rfl)
          rw [h1, ok_bind]
          exact ih h2 h3 h4 (by simp only [List.length_append, List.length_singleton]; omega)

/-- The iterator stands at an inner node, at its child in position `it.idx`. -/
structure HAtIdx (H : ArtHeap V) (r : ArtRef) (B : Prop) (it : ArtIt V) (hit : HIt) (s : ArtRef) : Prop where
  stk : HStk H r hit.frames it.stack s it.idx
  frame : hit.frame = it.stack.length
  len : hit.frames.length = 7
  depth : hit.depth = it.depth
  key : hit.key = it.key

theorem HAtIdx.at {H : ArtHeap V} {r : ArtRef} {B : Prop} {it : ArtIt V} {hit : HIt} {s : ArtRef} (h : HAtIdx H r B it hit s) : HAt H r B it hit s :=
  ⟨.inr ⟨_, h.stk⟩, h.frame, h.len, h.depth, h.key, fun _ => h.stk.bottom⟩

/-- One step up. -/
theorem up_sim {H : ArtHeap V} {r : ArtRef} {root : Art V} {F : ArtRef → Prop} (hrep : HRep H r root F) (hr : Inv [] root) {B : Prop} {it : ArtIt V}
    {hit : HIt} {s : ArtRef} (h : HAt H r B it hit s) {t : Art V} {path : List Nat} (hR : Reach root it.stack path t) (hd : it.depth = path.length)
    {i : Nat} {st : List Nat} (hs : it.stack = i :: st) :
    ∃ hit' p path' pfx n, hit.up H = .ok (some hit') ∧
      HAtIdx H r B { it with stack := st, idx := i, depth := it.depth - (prefixSizeAt (some root) st + 1) } hit' p ∧
      Reach root st path' (.inner pfx n) ∧ it.depth - (prefixSizeAt (some root) st + 1) = path'.length := by
  have hp := h.pos
  have hfr := h.frame
  rw [hs] at hp hfr hR
  obtain ⟨path', pfx, n, d, h1, h2, rfl, rfl⟩ := hR.cons_inv
  have hple := (hR.inv hr).path_le
  rcases hp with ⟨e, -⟩ | ⟨j, hp⟩
  · cases e
  · cases hp with
    | @cons st p i j pfx' n' d' hp hg hd' hf =>
      obtain ⟨nr, hg2, ht, hk, hsh⟩ := HPos.inner hrep hr (.inr ⟨_, hp⟩) h1
      rw [hg] at hg2
      cases hg2
      simp only [List.length_append, List.length_singleton] at hd hple
      have e := prefixSizeAt_eq h1
      refine ⟨_, p, path', pfx, n, up_ok hp hfr hg ht (by rw [h.depth]; omega) (by rw [h.depth]; omega), ⟨hp, rfl, h.len, ?_, h.key⟩, h1, ?_⟩
      · simp only; rw [h.depth, e]
      · rw [e]; omega

/-- The step to the neighbor, and down from there. -/
theorem neighbor_sim {H : ArtHeap V} {r : ArtRef} {root : Art V} {F : ArtRef → Prop} (hrep : HRep H r root F) (hr : Inv [] root) {B : Prop} (fwd : Bool)
    {it : ArtIt V} {hit : HIt} {s : ArtRef} (h : HAtIdx H r B it hit s) {path pfx : List Nat} {n : Node (Art V)}
    (hR : Reach root it.stack path (.inner pfx n)) (hd : it.depth = path.length) :
    (hit.neighborChild H fwd = .ok none ∧ itNeighbor (some root) fwd it = none) ∨
    ∃ p hit' it', hit.neighborChild H fwd = .ok (some p) ∧ HIt.nodeInit H fwd LEVELS p.2 p.1 = .ok hit' ∧
      itNeighbor (some root) fwd it = some it' ∧ IRes H r B it' hit' := by
  obtain ⟨nr, hg, ht, hk, hs⟩ := h.at.pos.inner hrep hr hR
  have hI := hR.inv hr
  cases hI with
  | inner hn hl hb hc =>
    have key : SameIdx (if fwd then nr.nextFrom (it.idx + 1) else nr.prevFrom it.idx) (if fwd then n.nextFrom (it.idx + 1) else n.prevFrom it.idx) := by
      cases fwd with
      | true => exact shape_next hs _
      | false => exact shape_prev hs _
    have hc1 : ∀ d, (if fwd then nr.nextFrom (it.idx + 1) else nr.prevFrom it.idx) = some d → nr.childAt d.index = some d := by
      cases fwd with
      | true => exact fun d hd => hk.next_childAt hd
      | false => exact fun d hd => hk.prev_childAt hd
    have hc2 : ∀ d, (if fwd then n.nextFrom (it.idx + 1) else n.prevFrom it.idx) = some d → n.childAt d.index = some d := by
      cases fwd with
      | true => exact fun d hd => hn.next_childAt hd
      | false => exact fun d hd => hn.prev_childAt hd
    have htop : hit.frames[hit.frame]? = some ⟨some s, it.idx⟩ := by rw [h.frame]; exact h.stk.top
    unfold HIt.neighborChild itNeighbor
    rw [cur_ok htop, ok_bind, ref_ok htop, ok_bind, peekInner_ok (deref_valid H s) hg ht, ok_bind, hR.itNode]
    simp only
    generalize (if fwd then nr.nextFrom (it.idx + 1) else nr.prevFrom it.idx) = o1 at key hc1 ⊢
    generalize (if fwd then n.nextFrom (it.idx + 1) else n.prevFrom it.idx) = o2 at key hc2 ⊢
    rcases key with ⟨rfl, rfl⟩ | ⟨i, k, x, y, rfl, rfl⟩
    · exact .inl ⟨rfl, rfl⟩
    · right
      simp only
      obtain ⟨hit', h1, h2, h3, h4⟩ := down_sim hr h.at hR hd hg ht hk (hc1 _ rfl) (hc2 _ rfl)
      rw [h1, ok_bind]
      obtain ⟨hit2, h5, h6⟩ := nodeInit_sim hrep hr fwd LEVELS h2 h3 h4 (by unfold LEVELS; omega)
      exact ⟨_, hit2, _, rfl, h5, rfl, h6⟩

theorem moveInner_sim {H : ArtHeap V} {r : ArtRef} {root : Art V} {F : ArtRef → Prop} (hrep : HRep H r root F) (hr : Inv [] root) {B : Prop} (fwd : Bool)
    (st : List Nat) {it : ArtIt V} (hst : it.stack = st) {hit : HIt} {s : ArtRef} (h : HAtIdx H r B it hit s) {path pfx : List Nat}
    {n : Node (Art V)} (hR : Reach root it.stack path (.inner pfx n)) (hd : it.depth = path.length) (fuel : Nat) (hf : st.length ≤ fuel) :
    ∃ hit', HIt.move H fwd (fuel + 1) hit = .ok hit' ∧ IRes H r B (itMoveInner (some root) fwd st it) hit' := by
  induction st generalizing it hit s path pfx n fuel with
  | nil =>
    have htop : hit.frames[hit.frame]? = some ⟨some s, it.idx⟩ := by rw [h.frame]; exact h.stk.top
    obtain ⟨nr, hg, ht, hk, hs⟩ := h.at.pos.inner hrep hr hR
    simp only [HIt.move, itMoveInner]
    rw [ref_ok htop, ok_bind, if_neg (by rw [← ht]; exact ty_ne_leaf nr), ok_bind]
    simp only
    rcases neighbor_sim hrep hr fwd h hR hd with ⟨h1, h2⟩ | ⟨p, hit', it', h1, h2, h3, h4⟩
    · rw [h1, ok_bind, h2]
      simp only
      rw [up_zero (by rw [h.frame, hst]; rfl), ok_bind]
      exact ⟨_, rfl, ires_invalid h.at⟩
    · rw [h1, ok_bind, h3]
      simp only
      exact ⟨_, h2, h4⟩
  | cons i st ih =>
    have htop : hit.frames[hit.frame]? = some ⟨some s, it.idx⟩ := by rw [h.frame]; exact h.stk.top
    obtain ⟨nr, hg, ht, hk, hs⟩ := h.at.pos.inner hrep hr hR
    simp only [HIt.move, itMoveInner]
    rw [ref_ok htop, ok_bind, if_neg (by rw [← ht]; exact ty_ne_leaf nr), ok_bind]
    simp only
    rcases neighbor_sim hrep hr fwd h hR hd with ⟨h1, h2⟩ | ⟨p, hit', it', h1, h2, h3, h4⟩
    · rw [h1, ok_bind, h2]
      simp only
      obtain ⟨hit', p, path', pfx', n', h3, h4, h5, h6⟩ := up_sim hrep hr h.at hR hd hst
      rw [h3, ok_bind]
      simp only
      cases fuel with
      | zero => simp at hf
      | succ fuel => exact ih rfl h4 h5 h6 fuel (by simp only [List.length_cons] at hf; omega)
    · rw [h1, ok_bind, h3]
      simp only
      exact ⟨_, h2, h4⟩

theorem upAndMove_sim {H : ArtHeap V} {r : ArtRef} {root : Art V} {F : ArtRef → Prop} (hrep : HRep H r root F) (hr : Inv [] root) {B : Prop} (fwd : Bool)
    {it : ArtIt V} {hit : HIt} {s : ArtRef} (h : HAt H r B it hit s) {t : Art V} {path : List Nat} (hR : Reach root it.stack path t)
    (hd : it.depth = path.length) : ∃ hit', hit.upAndMove H fwd = .ok hit' ∧ IRes H r B (itUpAndMove (some root) fwd it) hit' := by
  unfold HIt.upAndMove itUpAndMove
  cases hs : it.stack with
  | nil =>
    rw [up_zero (by rw [h.frame, hs]; rfl), ok_bind]
    exact ⟨_, rfl, ires_invalid h⟩
  | cons i st =>
    obtain ⟨hit', p, path', pfx', n', h3, h4, h5, h6⟩ := up_sim hrep hr h hR hd hs
    rw [h3, ok_bind]
    simp only
    exact moveInner_sim hrep hr fwd st rfl h4 h5 h6 _ (by rw [h4.frame]; exact Nat.le_refl _)

/-- A move from a leaf. -/
theorem moveLeaf_sim {H : ArtHeap V} {r : ArtRef} {root : Art V} {F : ArtRef → Prop} (hrep : HRep H r root F) (hr : Inv [] root) {B : Prop} (fwd : Bool)
    {it : ArtIt V} {hit : HIt} {s : ArtRef} {j : Nat} (hstk : HStk H r hit.frames it.stack s j) (h : HAt H r B it hit s) {path k : List Nat} {v : V}
    (hR : Reach root it.stack path (.leaf k v)) (hd : it.depth = path.length) :
    ∃ hit', HIt.move H fwd (hit.frame + 1) hit = .ok hit' ∧ IRes H r B (itMove (some root) fwd it) hit' := by
  obtain ⟨hl, hg⟩ := h.pos.leaf hrep hr hR
  have htop : hit.frames[hit.frame]? = some ⟨some s, j⟩ := by rw [h.frame]; exact hstk.top
  unfold itMove
  rw [hR.itNode]
  simp only
  simp only [itUpAndMove]
  cases hs : it.stack with
  | nil =>
    simp only [HIt.move]
    rw [ref_ok htop, ok_bind, if_pos hl, up_zero (by rw [h.frame, hs]; rfl), ok_bind]
    exact ⟨_, rfl, ires_invalid h⟩
  | cons i st =>
    obtain ⟨hit', p, path', pfx', n', h3, h4, h5, h6⟩ := up_sim hrep hr h hR hd hs
    have htop' : hit'.frames[hit'.frame]? = some ⟨some p, i⟩ := by rw [h4.frame]; exact h4.stk.top
    obtain ⟨nr, hg', ht, hk, hsh⟩ := h4.at.pos.inner hrep hr h5
    have e : HIt.move H fwd (hit.frame + 1) hit = HIt.move H fwd (hit.frame + 1) hit' := by
      simp only [HIt.move]
      rw [ref_ok htop, ok_bind, if_pos hl, h3, ok_bind, ref_ok htop', ok_bind, if_neg (by rw [← ht]; exact ty_ne_leaf nr), ok_bind]
    rw [e]
    simp only
    exact moveInner_sim hrep hr fwd st rfl h4 h5 h6 _ (by rw [h.frame, hs, List.length_cons]; omega)

theorem compareIn_ok {a b : List Nat} {i j l : Nat} (h1 : i + l ≤ a.length) (h2 : j + l ≤ b.length) :
    comparePrefixIn a i b j l = .ok (artComparePrefix a i b j l) := by
  unfold comparePrefixIn; rw [if_pos ⟨h1, h2⟩]

theorem chunkAt_ok {key : List Nat} {i : Nat} (h : i < key.length) : chunkAt key i = .ok (key.getD i 0) := by
  unfold chunkAt
  rw [List.getElem?_eq_getElem h]
  simp [List.getD, List.getElem?_eq_getElem h]

theorem lowerLeaf_sim {H : ArtHeap V} {r : ArtRef} {root : Art V} {F : ArtRef → Prop} (hrep : HRep H r root F) (hr : Inv [] root) {B : Prop}
    {key : List Nat} (fuel : Nat) {it : ArtIt V} {hit : HIt} {s : ArtRef} {path k : List Nat} {v : V} (h : HAt H r B it hit s)
    (hR : Reach root it.stack path (.leaf k v)) (hd : it.depth = path.length) :
    ∃ hit', HIt.nodeLower H key fuel s hit = .ok hit' ∧ IRes H r B (nodeLowerBound (some root) key fuel (.leaf k v) it) hit' := by
  obtain ⟨h1, h2⟩ := h.pos.leaf hrep hr hR
  have e1 : HIt.nodeLower H key fuel s hit = hit.lowerLeaf H key s := by
    cases fuel <;> simp only [HIt.nodeLower] <;> rw [if_pos h1]
  have e2 : nodeLowerBound (some root) key fuel (.leaf k v) it =
      if artCompareKeys k key ≥ 0 then itValid it k v else itUpAndMove (some root) true it := by
    cases fuel <;> rfl
  rw [e1, e2]
  unfold HIt.lowerLeaf
  rw [peekLeaf_ok (deref_valid H s) h2, ok_bind]
  simp only
  by_cases hc : artCompareKeys k key ≥ 0
  · rw [if_pos hc, if_pos hc]
    exact ires_valid h (hR.stack_lt hr) h1 h2
  · rw [if_neg hc, if_neg hc]
    exact upAndMove_sim hrep hr true h hR hd

theorem nodeLower_sim {H : ArtHeap V} {r : ArtRef} {root : Art V} {F : ArtRef → Prop} (hrep : HRep H r root F) (hr : Inv [] root) {B : Prop}
    {key : List Nat} (hkey : key.length = 6) (fuel : Nat) {t : Art V} {it : ArtIt V} {hit : HIt} {s : ArtRef} {path : List Nat} (h : HAt H r B it hit s)
    (hR : Reach root it.stack path t) (hd : it.depth = path.length) (hf : 6 ≤ fuel + path.length) :
    ∃ hit', HIt.nodeLower H key fuel s hit = .ok hit' ∧ IRes H r B (nodeLowerBound (some root) key fuel t it) hit' := by
  induction fuel generalizing t it hit s path with
  | zero =>
    cases t with
    | leaf k v => exact lowerLeaf_sim hrep hr 0 h hR hd
    | inner pfx n =>
      have hI := hR.inv hr
      cases hI with
      | inner hn hl hb hc => omega
  | succ fuel ih =>
    cases t with
    | leaf k v => exact lowerLeaf_sim hrep hr _ h hR hd
    | inner pfx n =>
      obtain ⟨nr, hg, ht, hk, hs⟩ := h.pos.inner hrep hr hR
      have hI := hR.inv hr
      cases hI with
      | inner hn hl hb hc =>
        simp only [HIt.nodeLower, nodeLowerBound]
        rw [if_neg (by rw [← ht]; exact ty_ne_leaf nr), peekInner_ok (deref_valid H s) hg ht, ok_bind]
        simp only
        rw [compareIn_ok (by omega) (by rw [h.depth, hd]; omega), ok_bind, h.depth]
        by_cases c1 : artComparePrefix pfx 0 key it.depth pfx.length < 0
        · rw [if_pos c1, if_pos c1]
          exact upAndMove_sim hrep hr true h hR hd
        · rw [if_neg c1, if_neg c1]
          by_cases c2 : artComparePrefix pfx 0 key it.depth pfx.length > 0
          · rw [if_pos c2, if_pos c2]
            exact nodeInit_sim hrep hr true LEVELS h hR hd (by unfold LEVELS; omega)
          · rw [if_neg c2, if_neg c2, chunkAt_ok (by rw [hd]; omega), ok_bind]
            generalize key.getD (it.depth + pfx.length) 0 = chunk
            have e := shape_lower hs chunk
            have hc1 : ∀ d, nr.lowerBound chunk = some d → nr.childAt d.index = some d := fun d hd => hk.lower_childAt hd
            have hc2 : ∀ d, n.lowerBound chunk = some d → n.childAt d.index = some d := fun d hd => hn.lower_childAt hd
            generalize nr.lowerBound chunk = o1 at e hc1 ⊢
            generalize n.lowerBound chunk = o2 at e hc2 ⊢
            rcases e with ⟨rfl, rfl⟩ | ⟨i, k, x, y, rfl, rfl⟩
            · exact upAndMove_sim hrep hr true h hR hd
            · simp only
              obtain ⟨hit', h1, h2, h3, h4⟩ := down_sim hr h hR hd hg ht hk (hc1 _ rfl) (hc2 _ rfl)
              rw [h1, ok_bind]
              by_cases c3 : k > chunk
              · rw [if_pos c3, if_pos c3]
                exact nodeInit_sim hrep hr true LEVELS h2 h3 h4 (by unfold LEVELS; omega)
              · rw [if_neg c3, if_neg c3]
                exact ih h2 h3 h4 (by simp only [List.length_append, List.length_singleton]; omega)

theorem lowerLoop_sim {H : ArtHeap V} {r : ArtRef} {root : Art V} {F : ArtRef → Prop} (hrep : HRep H r root F) (hr : Inv [] root) {B : Prop}
    {key : List Nat} (hkey : key.length = 6) (st : List Nat) {it : ArtIt V} (hst : it.stack = st) (hik : it.key.length = 6) {t : Art V} {hit : HIt}
    {s : ArtRef} {j : Nat} (hstk : HStk H r hit.frames it.stack s j) {path : List Nat} (h : HAt H r B it hit s) (hR : Reach root it.stack path t)
    (hd : it.depth = path.length) (c : Int) (fuel : Nat) (hf : st.length ≤ fuel) :
    ∃ hit', HIt.lowerLoop H key (fuel + 1) c hit = .ok hit' ∧ IRes H r B (itLowerLoop (some root) key st c it) hit' := by
  induction st generalizing it t hit s j path c fuel with
  | nil =>
    have htop : hit.frames[hit.frame]? = some ⟨some s, j⟩ := by rw [h.frame]; exact hstk.top
    simp only [HIt.lowerLoop, itLowerLoop]
    rw [hR.itNode]
    by_cases hc : c ≠ 0
    · rw [if_pos hc, if_pos hc, up_zero (by rw [h.frame, hst]; rfl), ok_bind]
      simp only
      by_cases hc2 : c < 0
      · rw [if_pos hc2, if_pos hc2]
        exact ⟨_, rfl, ires_invalid h⟩
      · rw [if_neg hc2, if_neg hc2, ref_ok htop, ok_bind]
        exact nodeInit_sim hrep hr true LEVELS h hR hd (by unfold LEVELS; omega)
    · rw [if_neg hc, if_neg hc, ref_ok htop, ok_bind]
      exact nodeLower_sim hrep hr hkey LEVELS h hR hd (by unfold LEVELS; omega)
  | cons i st ih =>
    have htop : hit.frames[hit.frame]? = some ⟨some s, j⟩ := by rw [h.frame]; exact hstk.top
    simp only [HIt.lowerLoop, itLowerLoop]
    by_cases hc : c ≠ 0
    · rw [if_pos hc, if_pos hc]
      obtain ⟨hit', p, path', pfx', n', h3, h4, h5, h6⟩ := up_sim hrep hr h hR hd hst
      have htop' : hit'.frames[hit'.frame]? = some ⟨some p, i⟩ := by rw [h4.frame]; exact h4.stk.top
      obtain ⟨nr, hg', ht, hk, hsh⟩ := h4.at.pos.inner hrep hr h5
      have hl : path'.length + pfx'.length < 6 := by
        have hI := h5.inv hr
        cases hI with
        | inner hn hl hb hc => exact hl
      have hdep : hit'.depth = path'.length := h4.depth.trans h6
      have hkey' : hit'.key = it.key := h4.key
      rw [h3, ok_bind]
      simp only
      rw [ref_ok htop', ok_bind, peekInner_ok (deref_valid H p) hg' ht, ok_bind]
      simp only
      rw [compareIn_ok (by rw [hkey', hik, hdep]; omega) (by rw [hkey, hdep]; omega), ok_bind, hkey', hdep, h6, prefixSizeAt_eq h5]
      have h4' := h4
      rw [h6] at h4'
      cases fuel with
      | zero => simp at hf
      | succ fuel =>
        exact ih (it := { it with stack := st, idx := i, depth := path'.length }) rfl hik h4'.stk h4'.at h5 rfl _ fuel
          (by simp only [List.length_cons] at hf; omega)
    · rw [if_neg hc, if_neg hc, ref_ok htop, ok_bind, hR.itNode]
      exact nodeLower_sim hrep hr hkey LEVELS h hR hd (by unfold LEVELS; omega)

end
end CRoaring
