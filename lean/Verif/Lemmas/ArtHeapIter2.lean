import Verif.Lemmas.ArtHeapIter
import Verif.Lemmas.R64
/-
What the calls of an iterator over the arrays of nodes do: positions, insertion and removal.
-/
set_option linter.unusedSimpArgs false
set_option linter.unusedVariables false
namespace CRoaring
open Spec

section
variable {V : Type}

/-! ### Positions -/

/-- The first frame holds `o`. -/
def BotO (o : Option ArtRef) (fr : List HFrame) : Prop := ∃ i, fr[0]? = some ⟨o, i⟩

def FirstO (root : Option (Art V)) (X : Nat) : Option (List Nat × V) → Prop
  | none => ∀ k w, RHas root k w → keyNum k < X
  | some e => RHas root e.1 e.2 ∧ X ≤ keyNum e.1 ∧ ∀ k w, RHas root k w → X ≤ keyNum k → keyNum e.1 ≤ keyNum k

def LastO (root : Option (Art V)) (X : Nat) : Option (List Nat × V) → Prop
  | none => ∀ k w, RHas root k w → X ≤ keyNum k
  | some e => RHas root e.1 e.2 ∧ keyNum e.1 < X ∧ ∀ k w, RHas root k w → keyNum k < X → keyNum k ≤ keyNum e.1

/-- The iterator stands on the leaf of `k`. -/
def HCur (a : ArtT V) (root : Option (Art V)) (hit : HIt) (k : List Nat) (v : V) : Prop :=
  ∃ r t it, a.root = some r ∧ root = some t ∧ IRes a.heap r False it hit ∧ AtLeaf t it v ∧ it.key = k

/-- Where the iterator stands. -/
def HAtO (a : ArtT V) (root : Option (Art V)) (B : Prop) (hit : HIt) : Option (List Nat × V) → Prop
  | none => hit.value = none ∧ hit.frames.length = 7 ∧ (B → BotO a.root hit.frames)
  | some e => HCur a root hit e.1 e.2

theorem HAtO.imp {a : ArtT V} {root : Option (Art V)} {B C : Prop} {hit : HIt} {o : Option (List Nat × V)} (h : HAtO a root B hit o) (hc : C → B) :
    HAtO a root C hit o := by
  cases o with
  | none => exact ⟨h.1, h.2.1, fun c => h.2.2 (hc c)⟩
  | some e => exact h

theorem IRes.weaken {H : ArtHeap V} {r : ArtRef} {B C : Prop} {it : ArtIt V} {hit : HIt} (h : IRes H r B it hit) (hc : C → B) : IRes H r C it hit :=
  ⟨h.1, h.2.1, fun c => h.2.2.1 (hc c), h.2.2.2⟩

theorem ires_first {a : ArtT V} {r : ArtRef} {t : Art V} {B : Prop} {it : ArtIt V} {hit : HIt} {X : Nat} (har : a.root = some r) (hr : Inv [] t)
    (h : IRes a.heap r B it hit) (hf : FirstAt t X it) : ∃ o, HAtO a (some t) B hit o ∧ FirstO (some t) X o := by
  unfold FirstAt at hf
  cases hv : it.value with
  | none =>
    rw [hv] at hf
    obtain ⟨h1, h2, h3, h4⟩ := h
    rw [hv] at h4
    refine ⟨none, ⟨h4, h1, fun b => by rw [har]; exact h3 b⟩, fun k w hh => hf k w (rhas_some.1 hh)⟩
  | some v =>
    rw [hv] at hf
    obtain ⟨g1, g2, g3⟩ := hf
    exact ⟨some (it.key, v), ⟨r, t, it, har, rfl, h.weaken (fun f => f.elim), g1, rfl⟩, rhas_some.2 (g1.has hr), g2,
      fun k w hh => g3 k w (rhas_some.1 hh)⟩

theorem ires_last {a : ArtT V} {r : ArtRef} {t : Art V} {B : Prop} {it : ArtIt V} {hit : HIt} {X : Nat} (har : a.root = some r) (hr : Inv [] t)
    (h : IRes a.heap r B it hit) (hf : LastAt t X it) : ∃ o, HAtO a (some t) B hit o ∧ LastO (some t) X o := by
  unfold LastAt at hf
  cases hv : it.value with
  | none =>
    rw [hv] at hf
    obtain ⟨h1, h2, h3, h4⟩ := h
    rw [hv] at h4
    refine ⟨none, ⟨h4, h1, fun b => by rw [har]; exact h3 b⟩, fun k w hh => hf k w (rhas_some.1 hh)⟩
  | some v =>
    rw [hv] at hf
    obtain ⟨g1, g2, g3⟩ := hf
    exact ⟨some (it.key, v), ⟨r, t, it, har, rfl, h.weaken (fun f => f.elim), g1, rfl⟩, rhas_some.2 (g1.has hr), g2,
      fun k w hh => g3 k w (rhas_some.1 hh)⟩

theorem zero_at {H : ArtHeap V} {r : ArtRef} : HAt H r False (itZero : ArtIt V) HIt.zero r :=
  ⟨.inl ⟨rfl, rfl⟩, rfl, rfl, rfl, rfl, fun f => f.elim⟩

theorem arep_none {a : ArtT V} {L : ArtRef → Prop} {root : Option (Art V)} (ha : ARep a L root) (h : a.root = none) : root = none := by
  cases root with
  | none => rfl
  | some t => obtain ⟨r, F, h1, -⟩ := ha; rw [h] at h1; cases h1

theorem arep_some {a : ArtT V} {L : ArtRef → Prop} {root : Option (Art V)} (ha : ARep a L root) {r : ArtRef} (h : a.root = some r) :
    ∃ t F, root = some t ∧ HRep a.heap r t F ∧ HOk a.heap (fun x => F x ∨ L x) ∧ ∀ x, F x → ¬ L x := by
  cases root with
  | none => rw [ha.1] at h; cases h
  | some t =>
    obtain ⟨r', F, h1, h2, h3, h4⟩ := ha
    rw [h] at h1
    cases h1
    exact ⟨t, F, rfl, h2, h3, h4⟩

theorem HCur.see {a : ArtT V} {root : Option (Art V)} {hit : HIt} {k : List Nat} {v : V} (h : HCur a root hit k v) :
    ∃ s, hit.value = some (a.heap.deref s) ∧ a.heap.get s = some (.leaf k v) ∧ hit.key = k ∧ s.ty = .leaf := by
  obtain ⟨r, t, it, h1, h2, ⟨g1, g2, g3, g4⟩, h4, h5⟩ := h
  rw [h4.value] at g4
  obtain ⟨s, j, k1, k2, k3, k4, k5, k6⟩ := g4
  exact ⟨s, k6, by rw [← h5]; exact k5, by rw [g2, h5], k4⟩

theorem it_init {a : ArtT V} {L : ArtRef → Prop} {root : Option (Art V)} (ha : ARep a L root) (ho : ArtOk root) (first : Bool) :
    ∃ hit o, a.initIterator first = .ok hit ∧ HAtO a root True hit o ∧ (first = true → FirstO root 0 o) ∧ (first = false → LastO root (256 ^ 6) o) := by
  unfold ArtT.initIterator
  cases har : a.root with
  | none =>
    have := arep_none ha har
    subst this
    exact ⟨_, none, rfl, ⟨rfl, rfl, fun _ => ⟨0, by rw [har]; rfl⟩⟩, fun _ k w h => absurd h rhas_none, fun _ k w h => absurd h rhas_none⟩
  | some r =>
    obtain ⟨t, F, rfl, hrep, hok, hL⟩ := arep_some ha har
    have hr := ho t rfl
    obtain ⟨hit, h1, h2⟩ := nodeInit_sim hrep hr first LEVELS (it := itZero) (path := []) zero_at .nil rfl (by unfold LEVELS; omega)
    simp only
    have fin : ∀ v, AtLeaf t (nodeInitIterator first LEVELS t itZero) v → HAtO a (some t) True hit (some ((nodeInitIterator first LEVELS t itZero).key, v)) :=
      fun v hv => ⟨r, t, _, har, rfl, h2, hv, rfl⟩
    cases first with
    | true =>
      obtain ⟨v, a1, a2, a3⟩ := nodeInit_first hr LEVELS (it := itZero) (path := []) .nil rfl (by simp only [LEVELS]; omega)
      exact ⟨hit, _, h1, fin v a1, fun _ => ⟨rhas_some.2 a2, Nat.zero_le _, fun k w hh _ => a3 k w (rhas_some.1 hh)⟩, fun h => absurd h (by decide)⟩
    | false =>
      obtain ⟨v, a1, a2, a3⟩ := nodeInit_last hr LEVELS (it := itZero) (path := []) .nil rfl (by simp only [LEVELS]; omega)
      refine ⟨hit, _, h1, fin v a1, fun h => absurd h (by decide), fun _ => ⟨rhas_some.2 a2, keyNum_lt_top (hr.key a2).1, fun k w hh _ => a3 k w (rhas_some.1 hh)⟩⟩

theorem HCur.open {a : ArtT V} {root : Option (Art V)} {hit : HIt} {k : List Nat} {v : V} (h : HCur a root hit k v) :
    ∃ r t it s j path, a.root = some r ∧ root = some t ∧ HStk a.heap r hit.frames it.stack s j ∧ HAt a.heap r True it hit s ∧
      Reach t it.stack path (.leaf k v) ∧ it.depth = path.length ∧ AtLeaf t it v ∧ it.key = k ∧ s.ty = .leaf ∧ a.heap.get s = some (.leaf k v) ∧
      hit.value = some (a.heap.deref s) := by
  obtain ⟨r, t, it, h1, h2, ⟨g1, g2, g3, g4⟩, h4, h5⟩ := h
  have hat := h4
  obtain ⟨path, p1, p2, p3⟩ := h4
  rw [p2] at g4
  obtain ⟨s, j, k1, k2, k3, k4, k5, k6⟩ := g4
  rw [h5] at p1 k5
  exact ⟨r, t, it, s, j, path, h1, h2, k1, ⟨.inr ⟨j, k1⟩, k2, g1, k3, g2, fun _ => k1.bottom⟩, p1, p3, hat, h5, k4, k5, k6⟩

theorem it_next {a : ArtT V} {L : ArtRef → Prop} {root : Option (Art V)} (ha : ARep a L root) (ho : ArtOk root) {hit : HIt} {k : List Nat} {v : V}
    (h : HCur a root hit k v) : ∃ hit' o, a.itNext hit = .ok hit' ∧ HAtO a root True hit' o ∧ FirstO root (keyNum k + 1) o := by
  obtain ⟨r, t, it, s, j, path, h1, rfl, h3, h4, h5, h6, h7, rfl, -⟩ := h.open
  obtain ⟨t', F, e, hrep, hok, hL⟩ := arep_some ha h1
  cases e
  have hr := ho t rfl
  obtain ⟨hit', g1, g2⟩ := moveLeaf_sim hrep hr true h3 h4 h5 h6
  obtain ⟨o, g3, g4⟩ := ires_first h1 hr g2 (itNext_spec hr h7)
  exact ⟨hit', o, g1, g3, g4⟩

theorem it_prev {a : ArtT V} {L : ArtRef → Prop} {root : Option (Art V)} (ha : ARep a L root) (ho : ArtOk root) {hit : HIt} {k : List Nat} {v : V}
    (h : HCur a root hit k v) : ∃ hit' o, a.itPrev hit = .ok hit' ∧ HAtO a root True hit' o ∧ LastO root (keyNum k) o := by
  obtain ⟨r, t, it, s, j, path, h1, rfl, h3, h4, h5, h6, h7, rfl, -⟩ := h.open
  obtain ⟨t', F, e, hrep, hok, hL⟩ := arep_some ha h1
  cases e
  have hr := ho t rfl
  obtain ⟨hit', g1, g2⟩ := moveLeaf_sim hrep hr false h3 h4 h5 h6
  obtain ⟨o, g3, g4⟩ := ires_last h1 hr g2 (itPrev_spec hr h7)
  exact ⟨hit', o, g1, g3, g4⟩

/-- A search from the root, with whatever is in the frames. -/
theorem it_lower_root {a : ArtT V} {L : ArtRef → Prop} {root : Option (Art V)} (ha : ARep a L root) (ho : ArtOk root) {B : Prop} {r : ArtRef}
    (har : a.root = some r) {key : List Nat} (hk : IsKey key) {hit : HIt} (hl : hit.frames.length = 7) (hb : B → Bot r hit.frames) (hf : hit.frame = 0)
    (hd : hit.depth = 0) :
    ∃ hit' o, HIt.nodeLower a.heap key LEVELS r hit = .ok hit' ∧ HAtO a root B hit' o ∧ FirstO root (keyNum key) o := by
  obtain ⟨t, F, rfl, hrep, hok, hL⟩ := arep_some ha har
  have hr := ho t rfl
  have h0 : HAt a.heap r B (⟨[], 0, 0, hit.key, none⟩ : ArtIt V) hit r := ⟨.inl ⟨rfl, rfl⟩, hf, hl, hd, rfl, hb⟩
  obtain ⟨hit', g1, g2⟩ := nodeLower_sim hrep hr hk.len LEVELS (path := []) h0 .nil rfl (by unfold LEVELS; omega)
  obtain ⟨o, g3, g4⟩ := ires_first har hr g2 (nodeLowerBound_spec hr hk LEVELS (path := []) .nil rfl List.nil_prefix (by unfold LEVELS; omega))
  exact ⟨hit', o, g1, g3, g4⟩

theorem it_lower {a : ArtT V} {L : ArtRef → Prop} {root : Option (Art V)} (ha : ARep a L root) (ho : ArtOk root) {key : List Nat} (hk : IsKey key) :
    ∃ hit o, a.lowerBound key = .ok hit ∧ HAtO a root False hit o ∧ FirstO root (keyNum key) o := by
  unfold ArtT.lowerBound
  cases har : a.root with
  | none =>
    have := arep_none ha har
    subst this
    exact ⟨_, none, rfl, ⟨rfl, rfl, fun f => f.elim⟩, fun k w h => absurd h rhas_none⟩
  | some r => exact it_lower_root ha ho har hk rfl (fun f => f.elim) rfl rfl

theorem it_upper {a : ArtT V} {L : ArtRef → Prop} {root : Option (Art V)} (ha : ARep a L root) (ho : ArtOk root) {key : List Nat} (hk : IsKey key) :
    ∃ hit o, a.upperBound key = .ok hit ∧ HAtO a root False hit o ∧ FirstO root (keyNum key + 1) o := by
  unfold ArtT.upperBound
  cases har : a.root with
  | none =>
    have := arep_none ha har
    subst this
    exact ⟨_, none, rfl, ⟨rfl, rfl, fun f => f.elim⟩, fun k w h => absurd h rhas_none⟩
  | some r =>
    obtain ⟨hit, o, h1, h2, h3⟩ := it_lower_root ha ho har hk (B := False) (hit := HIt.zero) rfl (fun f => f.elim) rfl rfl
    simp only
    rw [h1, ok_bind]
    cases o with
    | none =>
      rw [if_neg (by rw [h2.1]; simp)]
      exact ⟨hit, none, rfl, h2, fun k w hh => Nat.lt_succ_of_lt (h3 k w hh)⟩
    | some e =>
      obtain ⟨k, v⟩ := e
      obtain ⟨s, s1, s2, s3, s4⟩ := HCur.see h2
      have hik : IsKey k := ho.key h3.1
      by_cases hc : hit.value.isSome = true ∧ artCompareKeys hit.key key = 0
      · rw [if_pos hc]
        have : k = key := by
          have := hc.2
          rw [s3] at this
          exact ((artCompareKeys_spec hik hk).1).1 this
        subst this
        obtain ⟨hit', o, g1, g2, g3⟩ := it_next ha ho h2
        exact ⟨hit', o, g1, g2.imp (fun f => f.elim), g3⟩
      · rw [if_neg hc]
        refine ⟨hit, some (k, v), rfl, h2, h3.1, ?_, fun k' w hh hx => h3.2.2 k' w hh (by omega)⟩
        have hne : keyNum k ≠ keyNum key := by
          intro e
          refine hc ⟨by rw [s1]; rfl, ?_⟩
          rw [s3]
          exact ((artCompareKeys_spec hik hk).1).2 (key_inj hik hk e)
        have : keyNum key ≤ keyNum k := h3.2.1
        show keyNum key + 1 ≤ keyNum k
        omega

theorem it_seek {a : ArtT V} {L : ArtRef → Prop} {root : Option (Art V)} (ha : ARep a L root) (ho : ArtOk root) {key : List Nat} (hk : IsKey key)
    {hit : HIt} {o : Option (List Nat × V)} (h : HAtO a root True hit o) :
    ∃ hit' o', a.itLowerBound hit key = .ok hit' ∧ HAtO a root True hit' o' ∧ FirstO root (keyNum key) o' := by
  unfold ArtT.itLowerBound
  cases o with
  | none =>
    obtain ⟨h1, h2, h3⟩ := h
    obtain ⟨i, hi⟩ := h3 trivial
    rw [h1]
    simp only
    rw [cur_ok (it := ⟨hit.key, none, 0, 0, hit.frames⟩) hi, ok_bind]
    cases har : a.root with
    | none =>
      have := arep_none ha har
      subst this
      rw [har] at hi
      refine ⟨_, none, rfl, ⟨rfl, h2, fun _ => ⟨i, by rw [har]; exact hi⟩⟩, fun k w h => absurd h rhas_none⟩
    | some r =>
      simp only
      rw [har] at hi
      exact it_lower_root ha ho har hk h2 (fun _ => ⟨i, hi⟩) rfl rfl
  | some e =>
    obtain ⟨r, t, it, s, j, path, h1, rfl, h3, h4, h5, h6, h7, h8, h9, h10, h11⟩ := HCur.open h
    obtain ⟨t', F, e', hrep, hok, hL⟩ := arep_some ha h1
    cases e'
    have hr := ho t rfl
    have hik : IsKey it.key := by rw [h8]; exact ((h5.inv hr).key (.leaf _ _)).1
    rw [h11]
    simp only
    rw [compareIn_ok (by rw [h4.key, hik.len]; decide) (by rw [hk.len]; decide), ok_bind]
    have hspec := itLowerBound_spec hr hk h7
    simp only [itLowerBound, h7.value] at hspec
    obtain ⟨hit', g1, g2⟩ := lowerLoop_sim hrep hr hk.len it.stack rfl hik.len h3 h4 h5 h6 (artComparePrefix hit.key 0 key 0 KEY_BYTES) hit.frame
      (by rw [h4.frame]; exact Nat.le_refl _)
    rw [← h4.key] at hspec
    obtain ⟨o, g3, g4⟩ := ires_first h1 hr g2 hspec
    exact ⟨hit', o, g1, g3, g4⟩

theorem it_insert {a : ArtT V} {L : ArtRef → Prop} {root : Option (Art V)} (ha : ARep a L root) (ho : ArtOk root) {key : List Nat} (hk : IsKey key)
    (hn : artFind root key = none) (val : V) {hit : HIt} (hl : hit.frames.length = 7) :
    ∃ a' hit', a.itInsert hit key val = .ok (a', hit') ∧ ARep a' L (artInsert root key val) ∧ HCur a' (artInsert root key val) hit' key val := by
  obtain ⟨a', l, h1, h2, -⟩ := arep_insert ha ho hk hn val
  obtain ⟨h3, h4⟩ := artInsert_has ho hk hn val
  have hh : RHas (artInsert root key val) key val := (h4 key val).2 (Or.inr ⟨rfl, rfl⟩)
  unfold ArtT.itInsert
  rw [h1, ok_bind]
  simp only
  cases har : a'.root with
  | none =>
    have := arep_none h2 har
    rw [this] at hh
    exact absurd hh rhas_none
  | some r =>
    obtain ⟨hit', o, g1, g2, g3⟩ := it_lower_root h2 h3 har hk (B := False) (hit := { hit with frame := 0, depth := 0 }) hl (fun f => f.elim) rfl rfl
    simp only
    rw [g1, ok_bind]
    refine ⟨a', hit', rfl, h2, ?_⟩
    cases o with
    | none => exact absurd (g3 key val hh) (Nat.lt_irrefl _)
    | some e =>
      obtain ⟨k, v⟩ := e
      obtain ⟨q1, q2, q3⟩ := g3
      have : k = key := key_inj (h3.key q1) hk (Nat.le_antisymm (q3 key val hh (Nat.le_refl _)) q2)
      subst this
      have hv : v = val := by
        have e1 := (artFind_iff h3 hk v).2 q1
        have e2 := (artFind_iff h3 hk val).2 hh
        rw [e1] at e2
        exact Option.some.inj e2
      subst hv
      exact g2

/-! ### Removal -/

theorem prefix_parts {path pfx key : List Nat} {c : Nat} (hk : key.length = 6) (hl : path.length + pfx.length < 6) (h : path ++ pfx ++ [c] <+: key) :
    path <+: key ∧ pfx <+: key.drop path.length ∧ key.getD (path.length + pfx.length) 0 = c := by
  have h1 := (snoc_prefix_iff (p := path ++ pfx) (k := key) (c := c) (by rw [List.length_append, hk]; exact hl)).1 h
  have h2 : path <+: key := (List.prefix_append path pfx).trans h1.1
  refine ⟨h2, (prefix_append_drop h2).2 h1.1, ?_⟩
  have := h1.2
  rw [List.length_append] at this
  exact this

theorem eraseAt_inner {H : ArtHeap V} {key : List Nat} (hk : key.length = 6) {fuel depth c : Nat} {p q : ArtRef} {pfx : List Nat} {nr : Node ArtRef}
    (hg : H.get p = some (.inner pfx nr)) (ht : nr.ty = p.ty) (hp : pfx <+: key.drop depth) (hc : key.getD (depth + pfx.length) 0 = c)
    (hq : nr.find c = some q) :
    ArtHeap.eraseAt key (fuel + 1) H p depth = (do
      let r1 ← ArtHeap.eraseAt key fuel H q (depth + pfx.length + 1)
      match r1.2 with
      | none => .ok (r1.1, none)
      | some e => do
        let s ← r1.1.afterErase p c q e.2
        .ok (s.1, some (e.1, some s.2))) := by
  subst hc
  have hme := commonLen_eq_left.2 hp
  conv => lhs; unfold ArtHeap.eraseAt
  rw [if_neg (by rw [← ht]; exact ty_ne_leaf nr), peekInner_ok (deref_valid H p) hg ht, ok_bind]
  simp only
  rw [artCommonPrefix_pfx hk, hme, if_neg (by simp), hq]
  rfl

theorem eraseAt_leaf {H : ArtHeap V} {key : List Nat} (hk : key.length = 6) {v : V} {l : ArtRef} (ht : l.ty = .leaf)
    (hg : H.get l = some (.leaf key v)) (fuel depth : Nat) :
    ArtHeap.eraseAt key fuel H l depth = (do
      let H ← H.release (H.deref l)
      .ok (H, some (v, none))) := by
  have e0 : ArtHeap.eraseAt key fuel H l depth = H.eraseAtLeaf l key := by
    cases fuel <;> (unfold ArtHeap.eraseAt; rw [if_pos ht])
  rw [e0]
  unfold ArtHeap.eraseAtLeaf
  rw [peekLeaf_ok (deref_valid H l) hg, ok_bind]
  simp only
  rw [if_neg (by rw [(artCommonPrefix_full hk hk).2 rfl]; simp)]

theorem erase_frame {H : ArtHeap V} {key : List Nat} (hk : IsKey key) (fuel : Nat) {U F : ArtRef → Prop} {r : ArtRef} {t : Art V}
    {path : List Nat} (hu : HOk H U) (hFU : ∀ x, F x → U x) (hrep : HRep H r t F) (hi : Inv path t)
    (hp : path <+: key) (hf : 6 ≤ fuel + path.length) :
    ∃ H' o, ArtHeap.eraseAt key fuel H r path.length = .ok (H', o) ∧ ∀ x, U x → ¬ F x → H'.get x = H.get x := by
  have h := eraseAt_sim hk fuel hu hFU hrep hi hp hf
  cases e : artEraseAt fuel t key path.length with
  | none => rw [e] at h; exact ⟨H, none, h, fun _ _ _ => rfl⟩
  | some z =>
    obtain ⟨v, t'⟩ := z
    rw [e] at h
    cases t' with
    | none => obtain ⟨H', h1, h2, h3⟩ := h; exact ⟨H', _, h1, h3⟩
    | some t' => obtain ⟨H', r', F', h1, h2⟩ := h; exact ⟨H', _, h1, h2.frame⟩

/-- The node above the last frame. -/
theorem HStk.parent {H : ArtHeap V} {r : ArtRef} {root : Art V} {F : ArtRef → Prop} (hrep : HRep H r root F) (hr : Inv [] root) {fr : List HFrame}
    {i : Nat} {st : List Nat} {s : ArtRef} {j : Nat} (h : HStk H r fr (i :: st) s j) {path : List Nat} {t : Art V} (hR : Reach root (i :: st) path t) :
    ∃ p path' pfx nr n c G Fs, HStk H r fr st p i ∧ H.get p = some (.inner pfx nr) ∧ nr.ty = p.ty ∧ KOk nr ∧ nr.find c = some s ∧
      path = path' ++ pfx ++ [c] ∧ Reach root st path' (.inner pfx n) ∧ path'.length + pfx.length < 6 ∧ HRep H p (.inner pfx n) G ∧ (∀ x, G x → F x) ∧
      HRep H s t Fs ∧ ¬ Fs p ∧ (∀ x, Fs x → G x) := by
  cases h with
  | @cons _ p _ _ pfx nr d h hg hd hf =>
    obtain ⟨path', pfx', n, d', r1, r2, rfl, rfl⟩ := hR.cons_inv
    obtain ⟨p'', t'', G, h1, h2, h3⟩ := h.reach hrep hr
    obtain ⟨rfl, rfl⟩ := r1.unique h1
    have hI := r1.inv hr
    cases hI with
    | inner hn hl hb hcc =>
      have h2' := h2
      cases h2 with
      | @inner _ _ nr' _ Fs _ ht hg' hk hs hc he hdj hr' hF =>
        rw [hg] at hg'
        cases hg'
        rcases shape_childAt hs i with ⟨e1, e2⟩ | ⟨a, k, x, y, e1, e2⟩
        · rw [hd] at e1; cases e1
        · rw [hd] at e1; cases e1
          rw [r2] at e2; cases e2
          exact ⟨p, path', pfx, nr, n, k, G, Fs k, h, hg, ht, hk, (hk.childAt hd).2, rfl, r1, hl, h2', h3,
            hc k _ _ (hk.childAt hd).2 (hn.childAt r2).2, hr' k, fun z hz => (hF z).2 (Or.inr ⟨k, hz⟩)⟩

/-- A removal below that leaves the reference to the node as it was leaves everything above as it was. -/
theorem eraseAt_up {H H1 : ArtHeap V} {r : ArtRef} {root : Art V} {F : ArtRef → Prop} (hrep : HRep H r root F) (hr : Inv [] root) {fr : List HFrame}
    {key : List Nat} (hk : IsKey key) {v : V} (st : List Nat) {s : ArtRef} {j : Nat} (h : HStk H r fr st s j) {path : List Nat} {t : Art V}
    (hR : Reach root st path t) (hp : path <+: key) (he : ArtHeap.eraseAt key (LEVELS - st.length) H s path.length = .ok (H1, some (v, some s))) :
    ArtHeap.eraseAt key LEVELS H r 0 = .ok (H1, some (v, some r)) := by
  induction st generalizing s j path t with
  | nil =>
    obtain ⟨rfl, rfl⟩ := hR.nil_inv
    cases h
    exact he
  | cons i st ih =>
    have hlt := hR.stack_lt hr
    obtain ⟨p, path', pfx, nr, n, c, G, Fs, h1, h2, h3, h4, h5, rfl, h7, h8, -⟩ := h.parent hrep hr hR
    obtain ⟨p1, p2, p3⟩ := prefix_parts hk.len h8 hp
    refine ih h1 h7 p1 ?_
    have ef : LEVELS - st.length = (LEVELS - (i :: st).length) + 1 := by
      simp only [List.length_cons] at hlt ⊢
      unfold LEVELS; omega
    have el : (path' ++ pfx ++ [c]).length = path'.length + pfx.length + 1 := by simp only [List.length_append, List.length_singleton]
    rw [el] at he
    rw [ef, eraseAt_inner hk.len h2 h3 p2 p3 h5, he, ok_bind]
    simp only [ArtHeap.afterErase, ArtHeap.storeChild]
    rw [if_neg (by simp), ok_bind]
    rfl

theorem up_frames {H : ArtHeap V} {p : ArtRef} {it : HIt} {m i : Nat} {pfx : List Nat} {n : Node ArtRef}
    (htop : it.frames[m]? = some ⟨some p, i⟩) (hfr : it.frame = m + 1) (hg : H.get p = some (.inner pfx n)) (ht : n.ty = p.ty)
    (hdep : pfx.length + 1 ≤ it.depth) (hdep6 : it.depth ≤ 6) :
    it.up H = .ok (some { it with frame := m, depth := it.depth - (pfx.length + 1) }) := by
  unfold HIt.up
  rw [if_neg (by omega)]
  have e : it.frame - 1 = m := by omega
  simp only
  rw [e, ref_ok (it := { it with frame := m }) htop, ok_bind, peekInner_ok (deref_valid H p) hg ht, ok_bind]
  simp only
  congr 3
  omega

theorem load_ok {a : ArtT V} {s : ArtRef} {k : List Nat} {v : V} (h : a.heap.get s = some (.leaf k v)) : a.load (a.heap.deref s) = .ok v := by
  unfold ArtT.load
  rw [peekLeaf_ok (deref_valid a.heap s) h]; rfl

theorem it_erase_core {a : ArtT V} {L : ArtRef → Prop} {root : Option (Art V)} (ha : ARep a L root) (ho : ArtOk root) {hit : HIt} {k : List Nat} {v : V}
    (h : HCur a root hit k v) :
    (∃ a', a.erase k = .ok (a', some v) ∧ a'.root = none ∧ a.itErase hit = .ok (some v, a', hit.invalidLoc) ∧ hit.frames.length = 7) ∨
    ∃ a' hit1 r', a.erase k = .ok (a', some v) ∧ a'.root = some r' ∧ hit1.frames.length = 7 ∧ Bot r' hit1.frames ∧
      a.itErase hit = (do
        let z ← a'.afterItErase hit1 k
        .ok (some v, z.1, z.2)) := by
  obtain ⟨r, t, it, s, j, path, h1, rfl, h3, h4, h5, h6, h7, h8, h9, h10, h11⟩ := h.open
  obtain ⟨t', F, e', hrep, hok, hL⟩ := arep_some ha h1
  cases e'
  have hr := ho t rfl
  have hkk := (h5.inv hr).key (.leaf _ _)
  have hk := hkk.1
  have htop : hit.frames[hit.frame]? = some ⟨some s, j⟩ := by rw [h4.frame]; exact h3.top
  have hFs : F s := by
    obtain ⟨q1, q2, q3, q4, q5, q6⟩ := h3.reach hrep hr
    exact q6 s q5.root
  obtain ⟨H1, e1, hrl⟩ := release_ok hok (deref_valid a.heap s) (Or.inl hFs)
  have hrl : Released a.heap H1 _ s := hrl
  have key_eq : hit.key = k := by rw [h4.key, h8]
  have hpre := hkk.2
  have start : a.itErase hit = (do
      let u ← hit.up H1
      match u with
      | none => .ok (some v, ⟨H1, none⟩, hit.invalidLoc)
      | some it => do
        let parent_ref ← it.ref
        let parent_node ← H1.peekInner (H1.deref parent_ref)
        let key_chunk_in_parent ← chunkAt it.key (it.depth + parent_node.1.length)
        let e ← H1.nodeErase (H1.deref parent_ref) key_chunk_in_parent
        let q ← ArtT.replaceParent ⟨e.1, a.root⟩ it parent_ref e.2
        let z ← q.1.afterItErase q.2 k
        .ok (some v, z.1, z.2)) := by
    unfold ArtT.itErase
    rw [h11]
    simp only
    rw [load_ok h10, ok_bind, ref_ok htop, ok_bind, e1, ok_bind, key_eq]
    rfl
  have her : a.erase k = (do
      let r ← ArtHeap.eraseAt k LEVELS a.heap r 0
      match r.2 with
      | none => .ok (⟨r.1, a.root⟩, none)
      | some e => .ok (⟨r.1, e.2⟩, some e.1)) := by
    unfold ArtT.erase
    rw [h1]
    rfl
  cases hst : it.stack with
  | nil =>
    left
    rw [hst] at h3 h5
    cases h3
    refine ⟨⟨H1, none⟩, ?_, rfl, ?_, h4.len⟩
    · rw [her, eraseAt_leaf hk.len h9 h10, e1, ok_bind]
      rfl
    · rw [start, up_zero (by rw [h4.frame, hst]; rfl), ok_bind]
  | cons i st =>
    right
    rw [hst] at h3 h5
    have hfr := h4.frame
    rw [hst, List.length_cons] at hfr
    have hlt := h5.stack_lt hr
    have hp6 := (h5.inv hr).path_le
    obtain ⟨p, path', pfx, nr, n, c, G, Fs, g1, g2, g3, g4, g5, rfl, g7, g8, g9, g10, g11, g12, g13⟩ := h3.parent hrep hr h5
    obtain ⟨p1, p2, p3⟩ := prefix_parts hk.len g8 hpre
    have el : (path' ++ pfx ++ [c]).length = path'.length + pfx.length + 1 := by simp only [List.length_append, List.length_singleton]
    rw [el] at h6 hp6
    have hdep : hit.depth = path'.length + pfx.length + 1 := h4.depth.trans h6
    have hps : p ≠ s := by
      rintro rfl
      rw [← g3] at h9
      exact ty_ne_leaf nr h9
    have hg1 : H1.get p = some (.inner pfx nr) := by rw [hrl.get p hps]; exact g2
    have hlen7 : st.length + 1 < 7 := hlt
    -- the removal at the parent
    have eP : ∀ fuel, ArtHeap.eraseAt k (fuel + 1) a.heap p path'.length = (do
        let s ← H1.nodeErase (H1.deref p) c
        .ok (s.1, some (v, some s.2))) := by
      intro fuel
      rw [eraseAt_inner hk.len g2 g3 p2 p3 g5, eraseAt_leaf hk.len h9 h10, e1, ok_bind, ok_bind]
      rfl
    have ef : LEVELS - st.length = (LEVELS - st.length - 1) + 1 := by unfold LEVELS; omega
    have hplen := g7.len hr
    have hUp : hit.up H1 = .ok (some { hit with frame := st.length, depth := path'.length }) := by
      rw [up_frames (m := st.length) g1.top hfr hg1 g3 (by omega) (by omega)]
      congr 3
      omega
    have hmid : a.itErase hit = (do
        let e ← H1.nodeErase (H1.deref p) c
        let q ← ArtT.replaceParent ⟨e.1, a.root⟩ { hit with frame := st.length, depth := path'.length } p e.2
        let z ← q.1.afterItErase q.2 k
        .ok (some v, z.1, z.2)) := by
      rw [start, hUp, ok_bind]
      simp only
      rw [ref_ok (it := { hit with frame := st.length, depth := path'.length }) g1.top, ok_bind, peekInner_ok (deref_valid H1 p) hg1 g3, ok_bind]
      simp only
      rw [key_eq, chunkAt_ok (by rw [hk.len]; exact g8), p3, ok_bind]
    cases st with
    | nil =>
      -- the parent is the root
      have hpr : p = r := by cases g1; rfl
      have hf0 : hit.frames[0]? = some ⟨some p, i⟩ := g1.top
      subst hpr
      obtain ⟨rfl, -⟩ := g7.nil_inv
      obtain ⟨H2, o, f1, f2⟩ := erase_frame hk LEVELS hok (fun x hx => Or.inl (g10 x hx)) g9 (g7.inv hr) p1 (by unfold LEVELS; omega)
      rw [show LEVELS = 6 + 1 from rfl, eP] at f1
      cases hne : H1.nodeErase (H1.deref p) c with
      | oob => rw [hne] at f1; cases f1
      | fail => rw [hne] at f1; cases f1
      | ok e =>
        obtain ⟨H2', p'⟩ := e
        have eR : a.erase k = .ok (⟨H2', some p'⟩, some v) := by
          rw [her, show LEVELS = 6 + 1 from rfl, show (0 : Nat) = ([] : List Nat).length from rfl, eP, hne]
          rfl
        rw [hne, ok_bind] at hmid
        simp only at hmid
        unfold ArtT.replaceParent at hmid
        by_cases hpp : p' ≠ p
        · rw [if_pos hpp] at hmid
          have hcur : HIt.cur { hit with frame := ([] : List Nat).length, depth := ([] : List Nat).length } = .ok ⟨some p, i⟩ := cur_ok hf0
          rw [hcur, ok_bind, setCur_ok (by show 0 < hit.frames.length; rw [h4.len]; omega), ok_bind] at hmid
          simp only at hmid
          rw [up_zero (H := H2') (by rfl), ok_bind, ok_bind] at hmid
          exact ⟨⟨H2', some p'⟩, _, p', eR, rfl, by simp [h4.len], ⟨i, List.getElem?_set_self (by rw [h4.len]; omega)⟩, hmid⟩
        · rw [if_neg hpp, ok_bind] at hmid
          have hpp : p' = p := by simpa using hpp
          subst hpp
          rw [h1] at hmid
          exact ⟨⟨H2', some p'⟩, _, p', eR, rfl, h4.len, ⟨i, hf0⟩, hmid⟩
    | cons i2 st2 =>
      obtain ⟨g, path2, pfx2, nr2, n2, c2, G2, Fs2, k1, k2, k3, k4, k5, rfl, k7, k8, k9, k10, k11, k12, k13⟩ := g1.parent hrep hr g7
      obtain ⟨p1', p2', p3'⟩ := prefix_parts hk.len k8 p1
      have el2 : (path2 ++ pfx2 ++ [c2]).length = path2.length + pfx2.length + 1 := by simp only [List.length_append, List.length_singleton]
      rw [List.length_cons] at hlen7
      have hp2len := k7.len hr
      -- the removal at the parent, and what it leaves alone
      obtain ⟨H2, o, f1, f2⟩ := erase_frame hk (LEVELS - (i2 :: st2).length) hok (fun x hx => Or.inl (k10 x (k13 x hx))) k11 (g7.inv hr) p1
        (by simp only [List.length_cons] at hplen ⊢; unfold LEVELS; omega)
      have f1' := f1
      rw [ef, eP] at f1'
      cases hne : H1.nodeErase (H1.deref p) c with
      | oob => rw [hne] at f1'; cases f1'
      | fail => rw [hne] at f1'; cases f1'
      | ok e =>
        obtain ⟨H2', p'⟩ := e
        rw [hne] at f1'
        have f1'' : Out.ok (H2', some (v, some p')) = Out.ok (H2, o) := f1'
        cases f1''
        have hgg : H2.get g = some (.inner pfx2 nr2) := by rw [f2 g (Or.inl (k10 g k9.root)) k12]; exact k2
        rw [hne, ok_bind] at hmid
        simp only at hmid
        unfold ArtT.replaceParent at hmid
        by_cases hpp : p' ≠ p
        · rw [if_pos hpp] at hmid
          have hcur : HIt.cur { hit with frame := (i2 :: st2).length, depth := (path2 ++ pfx2 ++ [c2]).length } = .ok ⟨some p, i⟩ := cur_ok g1.top
          rw [hcur, ok_bind, setCur_ok (by show (i2 :: st2).length < hit.frames.length; rw [h4.len]; exact Nat.lt_of_succ_lt hlen7), ok_bind] at hmid
          simp only at hmid
          have hfr2 : (hit.frames.set (i2 :: st2).length ⟨some p', i⟩)[st2.length]? = some ⟨some g, i2⟩ := by
            rw [List.getElem?_set_ne (by simp)]
            exact k1.top
          rw [up_frames (H := H2) (m := st2.length) (p := g) (i := i2)
            (it := { hit with frame := (i2 :: st2).length, depth := (path2 ++ pfx2 ++ [c2]).length, frames := hit.frames.set (i2 :: st2).length ⟨some p', i⟩ })
            hfr2 (by rfl) hgg k3 (by simp only [el2]; omega) (by simp only [el2]; omega), ok_bind] at hmid
          simp only at hmid
          rw [ref_ok (it := ⟨hit.key, hit.value, (path2 ++ pfx2 ++ [c2]).length - (pfx2.length + 1), st2.length,
              hit.frames.set (i2 :: st2).length ⟨some p', i⟩⟩) hfr2, ok_bind,
            peekInner_ok (deref_valid H2 g) hgg k3, ok_bind] at hmid
          simp only at hmid
          have ed : (path2 ++ pfx2 ++ [c2]).length - (pfx2.length + 1) = path2.length := by rw [el2]; omega
          rw [ed, key_eq, chunkAt_ok (by rw [hk.len]; exact k8), p3', ok_bind] at hmid
          -- the removal at the grandparent
          have eG : ArtHeap.eraseAt k (LEVELS - st2.length) a.heap g path2.length = (do
              let H ← H2.nodeReplace (H2.deref g) c2 p'
              .ok (H, some (v, some g))) := by
            have ef2 : LEVELS - st2.length = (LEVELS - (i2 :: st2).length) + 1 := by
              simp only [List.length_cons]
              unfold LEVELS; omega
            rw [el2] at f1
            rw [ef2, eraseAt_inner hk.len k2 k3 p2' p3' k5, f1, ok_bind]
            simp only [ArtHeap.afterErase, ArtHeap.storeChild]
            rw [if_pos hpp]
            cases H2.nodeReplace (H2.deref g) c2 p' <;> rfl
          obtain ⟨H3, o3, f3, -⟩ := erase_frame hk (LEVELS - st2.length) hok (fun x hx => Or.inl (k10 x hx)) k9 (k7.inv hr) p1'
            (by unfold LEVELS; omega)
          cases hrp : H2.nodeReplace (H2.deref g) c2 p' with
          | oob => rw [eG, hrp] at f3; cases f3
          | fail => rw [eG, hrp] at f3; cases f3
          | ok H3' =>
            rw [hrp, ok_bind] at eG
            rw [hrp, ok_bind, ok_bind, h1] at hmid
            have eR := eraseAt_up hrep hr hk st2 k1 k7 p1' eG
            refine ⟨⟨H3', some r⟩, _, r, ?_, rfl, ?_, ?_, hmid⟩
            · rw [her, eR]; rfl
            · simp [h4.len]
            · obtain ⟨i0, hi0⟩ := k1.bottom
              exact ⟨i0, by
                show (hit.frames.set (i2 :: st2).length _)[0]? = _
                rw [List.getElem?_set_ne (by simp)]; exact hi0⟩
        · rw [if_neg hpp, ok_bind] at hmid
          have hpp : p' = p := by simpa using hpp
          subst hpp
          have eR := eraseAt_up hrep hr hk (i2 :: st2) g1 g7 p1 f1
          rw [h1] at hmid
          exact ⟨⟨H2, some r⟩, _, r, by rw [her, eR]; rfl, rfl, h4.len, g1.bottom, hmid⟩

theorem it_erase {a : ArtT V} {L : ArtRef → Prop} {root : Option (Art V)} (ha : ARep a L root) (ho : ArtOk root) {hit : HIt} {k : List Nat} {v : V}
    (h : HCur a root hit k v) :
    ∃ a' hit' o, a.itErase hit = .ok (some v, a', hit') ∧ ARep a' L (artErase root k).2 ∧ HAtO a' (artErase root k).2 (a'.root ≠ none) hit' o ∧
      FirstO (artErase root k).2 (keyNum k) o := by
  have hk : IsKey k := by
    obtain ⟨r, t, it, s, j, path, h1, rfl, h3, h4, h5, -⟩ := h.open
    exact (((h5.inv (ho t rfl)).key (.leaf _ _))).1
  obtain ⟨b, e1, e2⟩ := arep_erase ha ho hk
  obtain ⟨-, e3, -⟩ := artErase_has ho hk
  rcases it_erase_core ha ho h with ⟨a', h1, h2, h3, h4⟩ | ⟨a', hit1, r', h1, h2, h3, h4, h5⟩
  · rw [e1] at h1
    simp only [Out.ok.injEq, Prod.mk.injEq] at h1
    obtain ⟨rfl, -⟩ := h1
    refine ⟨b, _, none, h3, e2, ⟨rfl, h4, fun hne => absurd h2 hne⟩, ?_⟩
    rw [arep_none e2 h2]
    exact fun k w h => absurd h rhas_none
  · rw [e1] at h1
    simp only [Out.ok.injEq, Prod.mk.injEq] at h1
    obtain ⟨rfl, -⟩ := h1
    obtain ⟨hit', o, g1, g2, g3⟩ := it_lower_root e2 e3 h2 hk (B := True) (hit := { hit1 with frame := 0, depth := 0 }) h3 (fun _ => h4) rfl rfl
    refine ⟨b, hit', o, ?_, e2, g2.imp (fun _ => trivial), g3⟩
    rw [h5]
    unfold ArtT.afterItErase
    rw [h2]
    simp only
    rw [g1]
    rfl

/-! ### Stores through the pointer of an iterator -/

theorem HStk.heap {H H' : ArtHeap V} {r : ArtRef} {fr : List HFrame} {st : List Nat} {s : ArtRef} {j : Nat} (h : HStk H r fr st s j)
    (e : ∀ x pfx n, H.get x = some (.inner pfx n) → H'.get x = some (.inner pfx n)) : HStk H' r fr st s j := by
  induction h with
  | nil h => exact .nil h
  | cons _ hg hd hf ih => exact .cons ih (e _ _ _ hg) hd hf

theorem it_store {a : ArtT V} {L : ArtRef → Prop} {root : Option (Art V)} (ha : ARep a L root) (ho : ArtOk root) {hit : HIt} {k : List Nat} {v : V}
    (h : HCur a root hit k v) (val : V) :
    ∃ p a', hit.value = some p ∧ a.store p val = .ok a' ∧ ARep a' L (artStore root k val) ∧ HCur a' (artStore root k val) hit k val := by
  obtain ⟨r, t, it, s, j, path, h1, rfl, h3, h4, h5, h6, h7, h8, h9, h10, h11⟩ := h.open
  obtain ⟨t', F, e', hrep, hok, hL⟩ := arep_some ha h1
  cases e'
  have hr := ho t rfl
  have hk := ((h5.inv hr).key (.leaf _ _)).1
  have hFs : F s := by
    obtain ⟨q1, q2, q3, q4, q5, q6⟩ := h3.reach hrep hr
    exact q6 s q5.root
  have hmf : AMapF a L F (artFind (some t)) := ⟨some t, ⟨r, h1, hrep, hok, hL⟩, ho, fun _ _ => rfl⟩
  have hp := hmf.ptr (k := k) (x := s) ⟨hFs, v, h10⟩
  rcases arep_find ha ho hk with ⟨e1, e2⟩ | ⟨w, p, e1, e2, e3, e4⟩
  · rw [hp.find] at e2; cases e2
  · rw [hp.find] at e2
    cases e2
    obtain ⟨a', s1, s2⟩ := e4 val
    obtain ⟨H1, e3, hw⟩ := poke_ok (deref_valid a.heap s) (hok.used s (Or.inl hFs)) (.leaf k val)
    have hw : Poked a.heap H1 s (.leaf k val) := hw
    have hst : a.store (a.heap.deref s) val = .ok ⟨H1, a.root⟩ := by
      unfold ArtT.store
      rw [peekLeaf_ok (deref_valid _ s) h10, ok_bind]
      simp only
      rw [e3]; rfl
    rw [hst] at s1
    cases s1
    refine ⟨_, ⟨H1, a.root⟩, h11, hst, s2, r, _, { it with value := some val }, h1, rfl, ⟨h4.len, h4.key, fun f => f.elim, s, j, ?_, h4.frame, h4.depth, h9, ?_, ?_⟩, ?_, h8⟩
    · refine h3.heap (fun x pfx n hx => ?_)
      show H1.get x = _
      rw [hw.get, if_neg ?_]
      · exact hx
      · rintro rfl
        rw [h10] at hx; cases hx
    · show H1.get s = some (.leaf it.key val)
      rw [hw.get, if_pos rfl, h8]
    · show hit.value = some (H1.deref s)
      rw [h11]
      unfold ArtHeap.deref
      rw [hw.gen]
    · have := h7.store hr val
      exact h8 ▸ this

end
end CRoaring
