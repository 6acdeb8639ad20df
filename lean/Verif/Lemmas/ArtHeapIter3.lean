import Verif.Lemmas.ArtHeapIter2
import Verif.Lemmas.ArtHeapCalls
import Verif.ArtIterSpec
/-
Iterators on the arrays follow a cursor on a map.
-/
set_option linter.unusedSimpArgs false
set_option linter.unusedVariables false
namespace CRoaring
open Spec

section
variable {V : Type}

/-- Where an iterator stands, if there is one. -/
def CurOf (a : ArtT V) (root : Option (Art V)) : Option HIt → Option Cursor → Prop
  | none, none => True
  | some it, some c => ∃ o, HAtO a root (c.again = true) it o ∧ o.map (·.1) = c.key
  | _, _ => False

structure ItSt (s : ArtT V × Option HIt) (m : List Nat → Option V) (c : Option Cursor) (L : ArtRef → Prop) (root : Option (Art V)) : Prop where
  rep : ARep s.1 L root
  ok : ArtOk root
  map : ∀ k, IsKey k → artFind root k = m k
  cur : CurOf s.1 root s.2 c

theorem six_iff {k : List Nat} : SixBytes k ↔ IsKey k := ⟨fun h => ⟨h.1, h.2⟩, fun h => ⟨h.1, h.2⟩⟩

theorem rhas_iff {root : Option (Art V)} {m : List Nat → Option V} (ho : ArtOk root) (hm : ∀ k, IsKey k → artFind root k = m k) {k : List Nat} {v : V} :
    RHas root k v ↔ SixBytes k ∧ m k = some v := by
  constructor
  · intro h
    have hk := ho.key h
    exact ⟨six_iff.2 hk, by rw [← hm k hk, artFind_iff ho hk]; exact h⟩
  · rintro ⟨h1, h2⟩
    have hk := six_iff.1 h1
    rw [← hm k hk, artFind_iff ho hk] at h2
    exact h2

theorem least_of {root : Option (Art V)} {m : List Nat → Option V} (ho : ArtOk root) (hm : ∀ k, IsKey k → artFind root k = m k) {X : Nat} {P : Nat → Prop}
    (hP : ∀ x, P x ↔ X ≤ x) {o : Option (List Nat × V)} (h : FirstO root X o) : LeastKey m P o := by
  cases o with
  | none =>
    intro k hk hne hp
    obtain ⟨v, hv⟩ := Option.ne_none_iff_exists'.1 hne
    have := h k v ((rhas_iff ho hm).2 ⟨hk, hv⟩)
    rw [hP] at hp
    exact absurd hp (Nat.not_le.2 this)
  | some e =>
    obtain ⟨h1, h2, h3⟩ := h
    obtain ⟨g1, g2⟩ := (rhas_iff ho hm).1 h1
    refine ⟨g1, g2, (hP _).2 h2, fun k hk hne hp => ?_⟩
    obtain ⟨v, hv⟩ := Option.ne_none_iff_exists'.1 hne
    exact h3 k v ((rhas_iff ho hm).2 ⟨hk, hv⟩) ((hP _).1 hp)

theorem greatest_of {root : Option (Art V)} {m : List Nat → Option V} (ho : ArtOk root) (hm : ∀ k, IsKey k → artFind root k = m k) {X : Nat}
    {P : Nat → Prop} (hP : ∀ k, SixBytes k → (P (keyOrd k) ↔ keyOrd k < X)) {o : Option (List Nat × V)} (h : LastO root X o) : GreatestKey m P o := by
  cases o with
  | none =>
    intro k hk hne hp
    obtain ⟨v, hv⟩ := Option.ne_none_iff_exists'.1 hne
    have := h k v ((rhas_iff ho hm).2 ⟨hk, hv⟩)
    rw [hP k hk] at hp
    exact absurd hp (Nat.not_lt.2 this)
  | some e =>
    obtain ⟨h1, h2, h3⟩ := h
    obtain ⟨g1, g2⟩ := (rhas_iff ho hm).1 h1
    refine ⟨g1, g2, (hP _ g1).2 h2, fun k hk hne hp => ?_⟩
    obtain ⟨v, hv⟩ := Option.ne_none_iff_exists'.1 hne
    exact h3 k v ((rhas_iff ho hm).2 ⟨hk, hv⟩) ((hP _ hk).1 hp)

theorem HCur.rhas {a : ArtT V} {root : Option (Art V)} {hit : HIt} {k : List Nat} {v : V} (ho : ArtOk root) (h : HCur a root hit k v) : RHas root k v := by
  obtain ⟨r, t, it, s, j, path, h1, rfl, h3, h4, h5, h6, h7, h8, h9, h10, h11⟩ := h.open
  exact rhas_some.2 (h5.has (ho t rfl) (.leaf k v))

theorem HAtO.shown {a : ArtT V} {root : Option (Art V)} {B : Prop} {hit : HIt} {o : Option (List Nat × V)} (h : HAtO a root B hit o) (ans : Option V) :
    a.show ans hit = .ok ((a, some hit), ans, o) := by
  unfold ArtT.show ArtT.see
  cases o with
  | none => rw [h.1]; rfl
  | some e =>
    obtain ⟨s, h1, h2, h3, h4⟩ := HCur.see h
    rw [h1]
    simp only
    rw [load_ok h2, ok_bind, ok_bind, h3]

theorem HAtO.len {a : ArtT V} {root : Option (Art V)} {B : Prop} {hit : HIt} {o : Option (List Nat × V)} (h : HAtO a root B hit o) :
    hit.frames.length = 7 := by
  cases o with
  | none => exact h.2.1
  | some e =>
    obtain ⟨r, t, it, h1, h2, ⟨g1, -⟩, -⟩ := h
    exact g1

theorem it_step {s : ArtT V × Option HIt} {m : List Nat → Option V} {c : Option Cursor} {L : ArtRef → Prop} {root : Option (Art V)}
    (h : ItSt s m c L root) (op : ItOp V) (hop : op.Allowed m c) :
    ∃ s' out m' c' L' root', itStep s op = .ok (s', out) ∧ ItSpec m c op out m' c' ∧ ItSt s' m' c' L' root' := by
  obtain ⟨a, oit⟩ := s
  obtain ⟨h1, h2, h3, h4⟩ := h
  simp only at h1 h4
  have on : ∀ {k b}, c = some ⟨some k, b⟩ → ∃ it v, oit = some it ∧ HCur a root it k v := by
    rintro k b rfl
    cases oit with
    | none => exact h4.elim
    | some it =>
      obtain ⟨o, g1, g2⟩ := h4
      cases o with
      | none => cases g2
      | some e => cases g2; exact ⟨it, e.2, rfl, g1⟩
  cases op with
  | call x =>
    have hm : AMap a L m := ⟨root, h1, h2, h3⟩
    cases x with
    | req op =>
      cases op with
      | get key =>
        obtain ⟨b, g1, g2⟩ := amap_step hm (.get key) (six_iff.1 hop)
        have hb : b = a := by
          unfold ArtT.step at g1
          simp only at g1
          cases hf : a.find key with
          | oob => rw [hf] at g1; cases g1
          | fail => rw [hf] at g1; cases g1
          | ok p =>
            rw [hf] at g1
            cases p with
            | none => simp only [ok_bind, Out.ok.injEq, Prod.mk.injEq] at g1; exact g1.1.symm
            | some p =>
              rw [ok_bind] at g1
              simp only at g1
              cases hl : a.load p with
              | oob => rw [hl] at g1; cases g1
              | fail => rw [hl] at g1; cases g1
              | ok v => rw [hl] at g1; simp only [ok_bind, Out.ok.injEq, Prod.mk.injEq] at g1; exact g1.1.symm
        subst hb
        refine ⟨(b, oit), _, _, _, L, root, ?_, .call hop, h1, h2, h3, h4⟩
        simp only [itStep, ArtT.call, g1, ok_bind, ArtCall.reads, mapCall, if_true]
      | put key val =>
        obtain ⟨b, g1, root', g2, g3, g4⟩ := amap_step hm (.put key val) (six_iff.1 hop)
        refine ⟨(b, none), _, _, _, L, root', ?_, .call hop, g2, g3, g4, trivial⟩
        simp [itStep, ArtT.call, g1, ok_bind, ArtCall.reads, mapCall]
      | erase key =>
        obtain ⟨b, g1, root', g2, g3, g4⟩ := amap_step hm (.erase key) (six_iff.1 hop)
        refine ⟨(b, none), _, _, _, L, root', ?_, .call hop, g2, g3, g4, trivial⟩
        simp [itStep, ArtT.call, g1, ok_bind, ArtCall.reads, mapCall]
    | shrink =>
      obtain ⟨b, f, g1, -, -, L', ⟨root', g2, g3, g4⟩, -⟩ := amap_shrink hm
      refine ⟨(b, none), _, _, _, L', root', ?_, .call hop, g2, g3, g4, trivial⟩
      simp [itStep, ArtT.call, g1, ok_bind, ArtCall.reads, mapCall]
  | first =>
    obtain ⟨hit, o, g1, g2, g3, -⟩ := it_init h1 h2 true
    refine ⟨(a, some hit), _, _, _, L, root, ?_, .first (least_of h2 h3 (X := 0) (fun x => by simp) (g3 rfl)), h1, h2, h3, o, g2.imp (fun _ => trivial), rfl⟩
    simp only [itStep, g1, ok_bind, g2.shown]
  | last =>
    obtain ⟨hit, o, g1, g2, -, g3⟩ := it_init h1 h2 false
    refine ⟨(a, some hit), _, _, _, L, root, ?_, .last (greatest_of h2 h3 (X := 256 ^ 6) (fun k hk => ?_) (g3 rfl)), h1, h2, h3, o,
      g2.imp (fun _ => trivial), rfl⟩
    · simp only [itStep, g1, ok_bind, g2.shown]
    · exact ⟨fun _ => keyNum_lt_top (six_iff.1 hk), fun _ => trivial⟩
  | lower key =>
    obtain ⟨hit, o, g1, g2, g3⟩ := it_lower h1 h2 (six_iff.1 hop)
    refine ⟨(a, some hit), _, _, _, L, root, ?_, .lower hop (least_of h2 h3 (X := keyNum key) (fun x => Iff.rfl) g3), h1, h2, h3, o,
      g2.imp (fun e => by cases e), rfl⟩
    simp only [itStep, g1, ok_bind, g2.shown]
  | upper key =>
    obtain ⟨hit, o, g1, g2, g3⟩ := it_upper h1 h2 (six_iff.1 hop)
    refine ⟨(a, some hit), _, _, _, L, root, ?_, .upper hop (least_of h2 h3 (X := keyNum key + 1) (fun x => Iff.rfl) g3), h1, h2, h3, o,
      g2.imp (fun e => by cases e), rfl⟩
    simp only [itStep, g1, ok_bind, g2.shown]
  | next =>
    obtain ⟨k, b, rfl⟩ := hop
    obtain ⟨it, v, rfl, hc⟩ := on rfl
    obtain ⟨hit, o, g1, g2, g3⟩ := it_next h1 h2 hc
    refine ⟨(a, some hit), _, _, _, L, root, ?_, .next (least_of h2 h3 (X := keyNum k + 1) (fun x => Iff.rfl) g3), h1, h2, h3, o,
      g2.imp (fun _ => trivial), rfl⟩
    simp only [itStep, g1, ok_bind, g2.shown]
  | prev =>
    obtain ⟨k, b, rfl⟩ := hop
    obtain ⟨it, v, rfl, hc⟩ := on rfl
    obtain ⟨hit, o, g1, g2, g3⟩ := it_prev h1 h2 hc
    refine ⟨(a, some hit), _, _, _, L, root, ?_, .prev (greatest_of h2 h3 (X := keyNum k) (fun x _ => Iff.rfl) g3), h1, h2, h3, o,
      g2.imp (fun _ => trivial), rfl⟩
    simp only [itStep, g1, ok_bind, g2.shown]
  | seek key =>
    obtain ⟨hk, p, b, rfl, hp⟩ := hop
    cases oit with
    | none => exact h4.elim
    | some it =>
      obtain ⟨o, g1, g2⟩ := h4
      have ht : HAtO a root True it o := by
        cases o with
        | none =>
          simp only [Option.map_none] at g2
          exact ⟨g1.1, g1.2.1, fun _ => g1.2.2 (hp.resolve_left (fun hne => hne g2.symm))⟩
        | some e => exact g1
      obtain ⟨hit, o', e1, e2, e3⟩ := it_seek h1 h2 (six_iff.1 hk) ht
      refine ⟨(a, some hit), _, _, _, L, root, ?_, .seek hk hp (least_of h2 h3 (X := keyNum key) (fun x => Iff.rfl) e3), h1, h2, h3, o',
        e2.imp (fun _ => trivial), rfl⟩
      simp only [itStep, e1, ok_bind, e2.shown]
  | insert key val =>
    obtain ⟨hk, hn, hc⟩ := hop
    obtain ⟨c, rfl⟩ := Option.ne_none_iff_exists'.1 hc
    cases oit with
    | none => exact h4.elim
    | some it =>
      obtain ⟨o, g1, g2⟩ := h4
      have hn' : artFind root key = none := by rw [h3 key (six_iff.1 hk)]; exact hn
      obtain ⟨a', hit, e1, e2, e3⟩ := it_insert h1 h2 (six_iff.1 hk) hn' val g1.len
      obtain ⟨j1, j2⟩ := artInsert_has h2 (six_iff.1 hk) hn' val
      have e4 : HAtO a' (artInsert root key val) True hit (some (key, val)) := e3
      refine ⟨(a', some hit), _, _, _, L, _, ?_, .insert hk hn, e2, j1, fun k hk' => ?_, some (key, val), e3, rfl⟩
      · simp only [itStep, e1, ok_bind, e4.shown]
      · refine find_eq (root' := root) j1 hk' (fun v => ?_)
        rw [j2, ← artFind_iff h2 hk', h3 k hk']
        by_cases e : k = key
        · subst e
          rw [hn]
          simp [eq_comm]
        · simp [e]
  | erase =>
    obtain ⟨c, rfl⟩ := Option.ne_none_iff_exists'.1 hop
    cases oit with
    | none => exact h4.elim
    | some it =>
      obtain ⟨o, g1, g2⟩ := h4
      obtain ⟨ck, cb⟩ := c
      cases o with
      | none =>
        cases g2
        refine ⟨(a, some it), _, _, _, L, root, ?_, .eraseNone, h1, h2, h3, none, g1, rfl⟩
        have : a.itErase it = .ok (none, a, it) := by
          unfold ArtT.itErase
          rw [g1.1]
        simp only [itStep, this, ok_bind, g1.shown]
      | some e =>
        obtain ⟨k, v⟩ := e
        cases g2
        have hc : HCur a root it k v := g1
        obtain ⟨hk, hv⟩ := (rhas_iff h2 h3).1 (hc.rhas h2)
        obtain ⟨a', hit, o', e1, e2, e3, e4⟩ := it_erase h1 h2 hc
        obtain ⟨-, j2, j3⟩ := artErase_has h2 (six_iff.1 hk)
        have jm : ∀ k', IsKey k' → artFind (artErase root k).2 k' = if k' = k then none else m k' := by
          intro k' hk'
          refine find_eq (root' := root) j2 hk' (fun v => ?_)
          rw [j3, ← artFind_iff h2 hk', h3 k' hk']
          by_cases e : k' = k <;> simp [e]
        have hl : LeastKey m (fun x => keyOrd k < x) o' := by
          have := least_of j2 jm (X := keyNum k) (P := fun x => keyNum k ≤ x) (fun x => Iff.rfl) e4
          cases o' with
          | none =>
            intro k' hk' hne hlt
            have hne' : k' ≠ k := by rintro rfl; exact absurd hlt (Nat.lt_irrefl _)
            exact this k' hk' (by simp only [if_neg hne']; exact hne) (Nat.le_of_lt hlt)
          | some e =>
            obtain ⟨q1, q2, q3, q4⟩ := this
            have hne : e.1 ≠ k := by
              intro e'; simp only [if_pos e'] at q2; cases q2
            simp only [if_neg hne] at q2
            refine ⟨q1, q2, Nat.lt_of_le_of_ne q3 (fun e => hne (key_inj (six_iff.1 q1) (six_iff.1 hk) e.symm)), fun k' hk' hn' hlt => ?_⟩
            have hne' : k' ≠ k := by rintro rfl; exact absurd hlt (Nat.lt_irrefl _)
            exact q4 k' hk' (by simp only [if_neg hne']; exact hn') (Nat.le_of_lt hlt)
        have hb : decide (a'.root ≠ none) = true ↔ ∃ k', k' ≠ k ∧ SixBytes k' ∧ m k' ≠ none := by
          rw [decide_eq_true_iff]
          constructor
          · intro hne
            obtain ⟨r, hr⟩ := Option.ne_none_iff_exists'.1 hne
            obtain ⟨t, F, ht, -⟩ := arep_some e2 hr
            obtain ⟨k', w, hw⟩ := (j2 t ht).nonempty
            have hw' : RHas (artErase root k).2 k' w := by rw [ht]; exact rhas_some.2 hw
            obtain ⟨q1, q2⟩ := (j3 k' w).1 hw'
            obtain ⟨q3, q4⟩ := (rhas_iff h2 h3).1 q2
            exact ⟨k', q1, q3, by rw [q4]; exact Option.some_ne_none _⟩
          · rintro ⟨k', q1, q2, q3⟩ hr
            obtain ⟨w, hw⟩ := Option.ne_none_iff_exists'.1 q3
            have := (j3 k' w).2 ⟨q1, (rhas_iff h2 h3).2 ⟨q2, hw⟩⟩
            rw [arep_none e2 hr] at this
            exact rhas_none this
        refine ⟨(a', some hit), _, _, _, L, _, ?_, .erase hv hl _ hb, e2, j2, jm, o', e3.imp (fun q => ?_), rfl⟩
        · simp only [itStep, e1, ok_bind, e3.shown]
        · exact of_decide_eq_true q
  | store val =>
    obtain ⟨k, b, rfl⟩ := hop
    obtain ⟨it, v, rfl, hc⟩ := on rfl
    obtain ⟨p, a', g1, g2, g3, g4⟩ := it_store h1 h2 hc val
    have hh := hc.rhas h2
    obtain ⟨hk, hv⟩ := (rhas_iff h2 h3).1 hh
    obtain ⟨j1, j2⟩ := artStore_map h2 h3 (six_iff.1 hk) (v := v) (by rw [h3 k (six_iff.1 hk)]; exact hv) val
    have e4 : HAtO a' (artStore root k val) True it (some (k, val)) := g4
    refine ⟨(a', some it), _, _, _, L, _, ?_, .store, g3, j1, j2, some (k, val), g4, rfl⟩
    simp only [itStep, g1, g2, ok_bind, e4.shown]

theorem it_steps : ∀ (ops : List (ItOp V)) {s : ArtT V × Option HIt} {m : List Nat → Option V} {c : Option Cursor} {L : ArtRef → Prop}
    {root : Option (Art V)}, ItSt s m c L root → ItsAllowed m c ops →
    ∃ s' outs m' c' L' root', itRun s ops = .ok (s', outs) ∧ ItSpecs m c ops outs m' c' ∧ ItSt s' m' c' L' root'
  | [], s, m, c, L, root, h, _ => ⟨s, [], m, c, L, root, rfl, .nil, h⟩
  | op :: ops, s, m, c, L, root, h, ha => by
    obtain ⟨s1, out, m1, c1, L1, root1, g1, g2, g3⟩ := it_step h op ha.1
    obtain ⟨s2, outs, m2, c2, L2, root2, e1, e2, e3⟩ := it_steps ops g3 (ha.2 _ _ _ g2)
    exact ⟨s2, out :: outs, m2, c2, L2, root2, by simp only [itRun, g1, e1, ok_bind], .cons g2 e2, e3⟩

/-! ### The map and the cursor determine what is seen -/

theorem LeastKey.unique {m : List Nat → Option V} {P : Nat → Prop} {o o' : Option (List Nat × V)} (h : LeastKey m P o) (h' : LeastKey m P o') : o = o' := by
  cases o with
  | none =>
    cases o' with
    | none => rfl
    | some e' => exact absurd h'.2.2.1 (h e'.1 h'.1 (by rw [h'.2.1]; exact Option.some_ne_none _))
  | some e =>
    cases o' with
    | none => exact absurd h.2.2.1 (h' e.1 h.1 (by rw [h.2.1]; exact Option.some_ne_none _))
    | some e' =>
      obtain ⟨k, v⟩ := e
      obtain ⟨k', v'⟩ := e'
      obtain ⟨a1, a2, a3, a4⟩ := h
      obtain ⟨b1, b2, b3, b4⟩ := h'
      simp only at a1 a2 a3 a4 b1 b2 b3 b4
      have := key_inj (six_iff.1 a1) (six_iff.1 b1)
        (Nat.le_antisymm (a4 k' b1 (by rw [b2]; exact Option.some_ne_none _) b3) (b4 k a1 (by rw [a2]; exact Option.some_ne_none _) a3))
      subst this
      rw [a2] at b2
      cases b2
      rfl

theorem GreatestKey.unique {m : List Nat → Option V} {P : Nat → Prop} {o o' : Option (List Nat × V)} (h : GreatestKey m P o) (h' : GreatestKey m P o') :
    o = o' := by
  cases o with
  | none =>
    cases o' with
    | none => rfl
    | some e' => exact absurd h'.2.2.1 (h e'.1 h'.1 (by rw [h'.2.1]; exact Option.some_ne_none _))
  | some e =>
    cases o' with
    | none => exact absurd h.2.2.1 (h' e.1 h.1 (by rw [h.2.1]; exact Option.some_ne_none _))
    | some e' =>
      obtain ⟨k, v⟩ := e
      obtain ⟨k', v'⟩ := e'
      obtain ⟨a1, a2, a3, a4⟩ := h
      obtain ⟨b1, b2, b3, b4⟩ := h'
      simp only at a1 a2 a3 a4 b1 b2 b3 b4
      have := key_inj (six_iff.1 a1) (six_iff.1 b1)
        (Nat.le_antisymm (b4 k a1 (by rw [a2]; exact Option.some_ne_none _) a3) (a4 k' b1 (by rw [b2]; exact Option.some_ne_none _) b3))
      subst this
      rw [a2] at b2
      cases b2
      rfl

theorem ItSpec.unique {m : List Nat → Option V} {c : Option Cursor} {op : ItOp V} {out out' : Option V × Option (List Nat × V)}
    {m1 m1' : List Nat → Option V} {c1 c1' : Option Cursor} (h : ItSpec m c op out m1 c1) (h' : ItSpec m c op out' m1' c1') :
    out = out' ∧ m1 = m1' ∧ c1 = c1' := by
  cases h with
  | call h => cases h'; exact ⟨rfl, rfl, rfl⟩
  | first h => cases h' with | first h' => cases h.unique h'; exact ⟨rfl, rfl, rfl⟩
  | last h => cases h' with | last h' => cases h.unique h'; exact ⟨rfl, rfl, rfl⟩
  | lower _ h => cases h' with | lower _ h' => cases h.unique h'; exact ⟨rfl, rfl, rfl⟩
  | upper _ h => cases h' with | upper _ h' => cases h.unique h'; exact ⟨rfl, rfl, rfl⟩
  | next h => cases h' with | next h' => cases h.unique h'; exact ⟨rfl, rfl, rfl⟩
  | prev h => cases h' with | prev h' => cases h.unique h'; exact ⟨rfl, rfl, rfl⟩
  | seek _ _ h => cases h' with | seek _ _ h' => cases h.unique h'; exact ⟨rfl, rfl, rfl⟩
  | insert => cases h'; exact ⟨rfl, rfl, rfl⟩
  | erase hv h b hb =>
    cases h' with
    | erase hv' h' b' hb' =>
      cases h.unique h'
      rw [hv] at hv'; cases hv'
      have : b = b' := by rw [Bool.eq_iff_iff, hb, hb']
      subst this
      exact ⟨rfl, rfl, rfl⟩
  | eraseNone => cases h'; exact ⟨rfl, rfl, rfl⟩
  | store => cases h'; exact ⟨rfl, rfl, rfl⟩

theorem ItSpec.allowed {m : List Nat → Option V} {c : Option Cursor} {op : ItOp V} {out : Option V × Option (List Nat × V)}
    {m1 : List Nat → Option V} {c1 : Option Cursor} (h : ItSpec m c op out m1 c1) : op.Allowed m c := by
  cases h with
  | call h => exact h
  | first => trivial
  | last => trivial
  | lower h => exact h
  | upper h => exact h
  | next => exact ⟨_, _, rfl⟩
  | prev => exact ⟨_, _, rfl⟩
  | seek h1 h2 => exact ⟨h1, _, _, rfl, h2⟩
  | insert h1 h2 => exact ⟨h1, h2, Option.some_ne_none _⟩
  | erase => exact Option.some_ne_none _
  | eraseNone => exact Option.some_ne_none _
  | store => exact ⟨_, _, rfl⟩

theorem ItSpecs.allowed {m : List Nat → Option V} {c : Option Cursor} {ops : List (ItOp V)} {outs : List (Option V × Option (List Nat × V))}
    {m2 : List Nat → Option V} {c2 : Option Cursor} (h : ItSpecs m c ops outs m2 c2) : ItsAllowed m c ops := by
  induction h with
  | nil => trivial
  | cons h hs ih =>
    refine ⟨h.allowed, fun out' m1' c1' h' => ?_⟩
    obtain ⟨rfl, rfl, rfl⟩ := h.unique h'
    exact ih

theorem ItSpecs.unique {m : List Nat → Option V} {c : Option Cursor} {ops : List (ItOp V)} {outs outs' : List (Option V × Option (List Nat × V))}
    {m2 m2' : List Nat → Option V} {c2 c2' : Option Cursor} (h : ItSpecs m c ops outs m2 c2) (h' : ItSpecs m c ops outs' m2' c2') :
    outs = outs' ∧ m2 = m2' ∧ c2 = c2' := by
  induction h generalizing outs' with
  | nil => cases h'; exact ⟨rfl, rfl, rfl⟩
  | cons h hs ih =>
    cases h' with
    | cons g gs =>
      obtain ⟨rfl, rfl, rfl⟩ := h.unique g
      obtain ⟨rfl, rfl, rfl⟩ := ih gs
      exact ⟨rfl, rfl, rfl⟩

end
end CRoaring
