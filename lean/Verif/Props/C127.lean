import Verif.Props.C125
import Verif.Lemmas.Store64Validate3
/-
C127: `roaring64_bitmap_internal_validate` on memory.
-/
namespace CRoaring.Props
open CRoaring CRoaring.Pool64

/-- The memory of a bitmap has values of the declared C types: the places of the arrays of nodes, and the containers.  This includes (`NTyped`) that the bytes of a
node48 that are not the empty mark are indices of its array of children, and that its `count` is the number of its keys, which the validation does not test
(`C79_validate_false`). -/
def Typed64M (r : R64M) : Prop := HTyped r.art.heap ∧ ∀ (a : Nat) (c : Container), r.mem[a]? = some (some c) → CTyped c

/-- C127, no false alarm: after any allowed history of calls that make, change and combine 64-bit bitmaps, `internal_validate` uses only memory that is there and
accepts each of them. -/
theorem C127_history (os : List Op) (ho : Sets.AllAllowed [] os) (i : Nat) (hi : (Sets.run [] os).1.Has i) :
    ∃ p r, Mem.run [] os = .ok (p, (Sets.run [] os).2) ∧ p.get i = .ok r ∧ r.internalValidate = .ok true := by
  obtain ⟨p, h1, h2⟩ := pool_is ho
  obtain ⟨r, g1, L, R, ⟨F, m, g2⟩, g3⟩ := fit_get h2 hi
  obtain ⟨b, e1, e2⟩ := internalValidate_st g2
  refine ⟨p, r, h1, g1, ?_⟩
  rw [e1]
  refine congrArg Out.ok (e2.2 fun a c hc => ?_)
  obtain ⟨i, hi⟩ := g2.slots.kept a c hc
  obtain ⟨k, l, hk, hm, rfl⟩ := g2.slots.used i a hi
  obtain ⟨a', c', f1, f2, -, f4⟩ := g2.slots.found k l hk hm
  rw [hi] at f1; cases f1
  rw [hc] at f2; cases f2
  have := g3.inv.2 k c ((artFind_iff g3.inv.1 hk _).1 f4)
  exact (containerValidate_iff this.1.typed).2 this

/-- C127, bytes from outside: whatever bytes a bitmap was read from, `internal_validate` uses only memory that is there.  It accepts the bitmap exactly when each of
its containers is accepted, and then the bitmap owns its containers and has a set. -/
theorem C127_any_bytes (buf : List UInt8) {maxbytes : Nat} (hl : maxbytes ≤ buf.length) {r : R64M} {n : Nat}
    (hr : R64M.portableDeserialize buf maxbytes = .ok (.inr (r, n))) :
    ∃ b, r.internalValidate = .ok b ∧ (b = true ↔ ∀ (a : Nat) (c : Container), r.mem[a]? = some (some c) → containerValidate c = true) ∧
      (b = true → ∃ s, Owned r s ∧ ∀ v, v < 2 ^ 64 → r.contains v = .ok (s v)) := by
  rcases portableDeserialize_ok hl with ⟨-, m, a, -⟩ | ⟨r', L, R, n', a1, a2, a3⟩
  · rw [a] at hr; cases hr
  rw [a2] at hr; cases hr
  have hcon := fun v => contains_ok a3 v
  obtain ⟨F, m, g2⟩ := a3
  obtain ⟨b, e1, e2⟩ := internalValidate_st g2
  refine ⟨b, e1, e2, fun hb => ?_⟩
  have hr' : r64PortableDeserializeSafe buf maxbytes = .ok R := by rw [r64PortableDeserializeSafe, a1]; rfl
  have hok : ArtOk R := by
    rcases (r64PortableDeserialize_total hl).1 with t | ⟨R', m, l, t, -, -, h, -⟩
    · rw [a1] at t; cases t
    · rw [a1] at t; cases t; exact h.ok
  have hv : r64InternalValidate R = true := by
    have hall : ∀ k c, RHas R k c → containerValidate c = true := by
      intro k c hc
      have hk := hok.key hc
      have hf := (artFind_iff hok hk _).2 hc
      cases hm : m k with
      | none => rw [g2.slots.absent k hk hm] at hf; cases hf
      | some l =>
        obtain ⟨a, c', f1, f2, -, f4⟩ := g2.slots.found k l hk hm
        rw [hf] at f4; cases f4
        exact e2.1 hb a c f2
    unfold r64InternalValidate artInternalValidate
    cases R with
    | none => rfl
    | some t => exact (artValidateAt_iff containerValidate 7 t [] (hok t rfl).typed (by intro b hb; cases hb) (by simp) (by simp)).2 ⟨hok t rfl, fun k v hv => hall k v ⟨t, rfl, hv⟩⟩
  have hrep := (C76_validated_input hl hr' hv).rep
  refine ⟨_, owned_of_sim ⟨F, m, g2⟩ hrep, fun v hv => ?_⟩
  rw [hcon, has64_of hv]

/-- C127, what is accepted: when `internal_validate` accepts a bitmap, whatever its memory holds, then there is a set such that a search for any value uses only memory
that is there and tells whether the value is in the set; each leaf that is found names a container of the type it says, which has the values of the set with
its key, of which there is at least one; and each value of the set has a leaf. -/
theorem C127_accepts {r : R64M} (ht : Typed64M r) (h : r.internalValidate = .ok true) :
    ∃ s : NSet, (∀ v, v < 2 ^ 64 → r.contains v = .ok (s v)) ∧
      (∀ k leaf, SixBytes k → r.HasLeaf k leaf → ∃ a c, r.containers[leafIndex leaf]? = some (some a) ∧ r.mem[a]? = some (some c) ∧ typecode c = leafType leaf ∧
        (∀ v, v < 2 ^ 64 → (splitKey v).1 = k → containerContains (splitKey v).2 c = s v) ∧ ∃ v, v < 2 ^ 64 ∧ (splitKey v).1 = k ∧ s v = true) ∧
      ∀ v, s v = true → v < 2 ^ 64 ∧ ∃ leaf, r.HasLeaf (splitKey v).1 leaf := by
  obtain ⟨root, h1, h2, h3⟩ := internalValidate_sound ht.1 h
  have hlook : ∀ v, (∃ p l a c, r.art.find (splitKey v).1 = .ok (some p) ∧ r.art.load p = .ok l ∧ r.containers[leafIndex l]? = some (some a) ∧
      r.mem[a]? = some (some c) ∧ r.contains v = .ok (containerContains (splitKey v).2 c)) ∨
      (r.art.find (splitKey v).1 = .ok none ∧ r.contains v = .ok false) := by
    intro v
    rcases h2 _ (splitKey_isKey v) with ⟨-, e⟩ | ⟨l, p, e1, e2, e3⟩
    · exact .inr ⟨e, by simp only [R64M.contains, e, ok_bind]⟩
    · left
      obtain ⟨a, c, f1, f2, f3, f4⟩ := h3 _ l ((artFind_iff h1 (splitKey_isKey v) _).1 e1)
      refine ⟨p, l, a, c, e2, e3, f1, f2, ?_⟩
      simp only [R64M.contains, e2, ok_bind, R64M.look, e3, R64M.getContainer]
      rw [show r.containers[leafIndex l]? = some (some a) from f1]
      simp only [ok_bind, R64M.deref]
      rw [f2]
      simp only
      rw [if_pos (show typecode c = leafType l from f3)]
      simp only [ok_bind]
  refine ⟨fun v => decide (v < 2 ^ 64) && (r.contains v).yes, fun v hv => ?_, fun k l hk hm => ?_, fun v hv => ?_⟩
  · rcases hlook v with ⟨p, l, a, c, -, -, -, -, e⟩ | ⟨-, e⟩ <;> simp only [e, Out.yes, decide_eq_true hv, Bool.true_and]
  · have hk := isKey_of_six hk
    obtain ⟨p, hm1, hm2⟩ := hm
    rcases h2 k hk with ⟨-, e⟩ | ⟨l', p', e1, e2, e3⟩
    · rw [e] at hm1; cases hm1
    rw [hm1] at e2; cases e2
    rw [hm2] at e3; cases e3
    obtain ⟨a, c, f1, f2, f3, f4⟩ := h3 k l ((artFind_iff h1 hk _).1 e1)
    have hin : ∀ v, v < 2 ^ 64 → (splitKey v).1 = k → containerContains (splitKey v).2 c = (decide (v < 2 ^ 64) && (r.contains v).yes) := by
      intro v hv hvk
      rcases hlook v with ⟨q, l', a', c', g1, g2, g3, g4, g5⟩ | ⟨g1, -⟩
      · rw [hvk, hm1] at g1; cases g1
        rw [hm2] at g2; cases g2
        rw [show r.containers[leafIndex l]? = some (some a) from f1] at g3; cases g3
        rw [f2] at g4; cases g4
        simp only [g5, Out.yes, decide_eq_true hv, Bool.true_and]
      · rw [hvk, hm1] at g1; cases g1
    refine ⟨a, c, f1, f2, f3, hin, ?_⟩
    obtain ⟨hc, y, hy⟩ := (containerValidate_iff (ht.2 a c f2)).1 f4
    have hy2 := chas_lt hc hy
    have hlt := key_lt hk
    unfold P48 at hlt
    have hv : keyNum k * 65536 + y < 2 ^ 64 := by omega
    have hvk : (splitKey (keyNum k * 65536 + y)).1 = k := by
      refine key_inj (splitKey_isKey _) hk ?_
      rw [keyNum_split (by unfold TOP64; omega)]
      omega
    refine ⟨keyNum k * 65536 + y, hv, hvk, ?_⟩
    refine (hin _ hv hvk).symm.trans ?_
    rw [show (splitKey (keyNum k * 65536 + y)).2 = y by simp only [splitKey]; omega, containerContains_eq hc.rep.lrep]
    exact hy
  · simp only [Bool.and_eq_true, decide_eq_true_eq] at hv
    refine ⟨hv.1, ?_⟩
    rcases hlook v with ⟨p, l, a, c, g1, g2, -⟩ | ⟨-, e⟩
    · exact ⟨l, p, g1, g2⟩
    · rw [e] at hv; cases hv.2

/-- C127, what else a bitmap must satisfy: with the tests that `internal_validate` does not make — each container is in one place of the array, each place in use is named by one
leaf, `first_free` is the first place that is not in use — an accepted bitmap owns its containers and has a set. -/
theorem C127_owned {r : R64M} (ht : Typed64M r) (h : r.internalValidate = .ok true)
    (hobj : ∀ (a : Nat) (c : Container), r.mem[a]? = some (some c) → ∃ i : Nat, r.containers[i]? = some (some a) ∧ ∀ j : Nat, r.containers[j]? = some (some a) → j = i)
    (hplace : ∀ i a : Nat, r.containers[i]? = some (some a) → ∃ k leaf, SixBytes k ∧ r.HasLeaf k leaf ∧ leafIndex leaf = i ∧
      ∀ k' leaf', SixBytes k' → r.HasLeaf k' leaf' → leafIndex leaf' = i → k' = k ∧ leaf' = leaf)
    (hfirst : r.first ≤ r.containers.length ∧ (∀ i, i < r.first → r.containers[i]? ≠ some none) ∧ (r.first < r.containers.length → r.containers[r.first]? = some none)) :
    ∃ s, Owned r s ∧ ∀ v, v < 2 ^ 64 → r.contains v = .ok (s v) := by
  obtain ⟨s, h1, h2, h3⟩ := C127_accepts ht h
  exact ⟨s, ⟨hobj, hplace, h2, h3, hfirst⟩, h1⟩

/-- C127, free lists: when a bitmap that is not empty is accepted, the free list of each array of nodes that has places begins within the array or at its end. -/
theorem C127_free_lists {r : R64M} (h : r.internalValidate = .ok true) (hn : r.art.root ≠ none) (t : ArtTy) (ht : r.art.heap.nodes t ≠ []) :
    r.art.heap.first t ≤ (r.art.heap.nodes t).length := by
  unfold R64M.internalValidate ArtT.internalValidate at h
  cases e : r.art.root with
  | none => exact absurd e hn
  | some ref =>
    rw [e] at h
    simp only at h
    split at h
    · next hf =>
      unfold ArtHeap.freeWithin at hf
      rw [List.all_eq_true] at hf
      have := hf t (by cases t <;> simp)
      rw [List.all_eq_true] at this
      have := this 0 (List.mem_range.2 (List.length_pos_iff.2 ht))
      simpa using this
    · cases h

/-! ### Cases -/

/-- Two chunks, in two leaves. -/
def c127two : Out R64M := do
  let r ← R64M.create.add 1
  r.add 65536

/-- The leaf of the second chunk names the container of the first. -/
def c127shared : Out R64M := do
  let r ← c127two
  match ← r.art.find (splitKey 65536).1 with
  | some p => do
    let art ← r.art.store p (createLeaf 0 2)
    .ok { r with art := art }
  | none => .fail

/-- What is seen of a bitmap: whether it is accepted, and whether it has some values. -/
def c127see (r : R64M) (vs : List Nat) : Out (Bool × List Bool) := do
  let b ← r.internalValidate
  let l ← vs.foldlM (fun acc v => do
    let x ← r.contains v
    .ok (acc ++ [x])) []
  .ok (b, l)

example : (do let r ← c127two
              c127see r [1, 65536, 65537, 70000]) = .ok (true, [true, true, false, false]) := by decide +kernel

/-- `internal_validate` does not notice that two leaves name one container: a value that is added to one chunk is in the other as well. -/
example : (do let r ← c127shared
              let x ← c127see r [1, 65537, 5, 65541]
              let r ← r.add 5
              let y ← c127see r [1, 65537, 5, 65541]
              .ok (x, y)) = .ok ((true, [true, true, false, false]), (true, [true, true, true, true])) := by decide +kernel

/-- The types of a place, tested. -/
def c127slot : ArtSlot Nat → Bool
  | .leaf k _ => decide (k.length = 6) && k.all fun b => decide (b < 256)
  | .inner pfx n => pfx.all (fun b => decide (b < 256)) && (match n with
    | .n4 ks => ks.all fun p => decide (p.1 < 256)
    | .n16 ks => ks.all fun p => decide (p.1 < 256)
    | _ => false)
  | .free _ => true

theorem c127slot_ok {s : ArtSlot Nat} (h : c127slot s = true) : SlotTyped s := by
  cases s with
  | leaf k v => simp [c127slot] at h; exact ⟨h.1, h.2⟩
  | inner pfx n =>
    cases n <;> simp [c127slot] at h
    · exact ⟨h.1, fun p hp => h.2 p.1 p.2 hp⟩
    · exact ⟨h.1, fun p hp => h.2 p.1 p.2 hp⟩
  | free n => trivial

theorem c127typed {r : R64M} (h : [ArtTy.leaf, .n4, .n16, .n48, .n256].all (fun t => (r.art.heap.nodes t).all c127slot) = true)
    (hm : r.mem.all (fun c => match c with | some (.array l) => l.all fun x => decide (x < 65536) | none => true | _ => false) = true) : Typed64M r := by
  rw [List.all_eq_true] at h hm
  refine ⟨fun x s hs => c127slot_ok ?_, fun a c hc => ?_⟩
  · have := h x.ty (by cases x.ty <;> simp)
    rw [List.all_eq_true] at this
    exact this s (List.mem_of_getElem? hs)
  · have := hm _ (List.mem_of_getElem? hc)
    cases c with
    | array l => simpa [CTyped] using this
    | bitset b => cases this
    | run rs => cases this

/-- The hypotheses of `C127_accepts` hold of both; those of `C127_owned` hold of the first, by `C121_history`. -/
example : (∃ r, c127two = .ok r ∧ Typed64M r ∧ r.internalValidate = .ok true) ∧ ∃ r, c127shared = .ok r ∧ Typed64M r ∧ r.internalValidate = .ok true :=
  ⟨⟨_, rfl, c127typed (by decide +kernel) (by decide +kernel), by decide +kernel⟩, _, rfl, c127typed (by decide +kernel) (by decide +kernel), by decide +kernel⟩

/-- Bitmaps with all four kinds of nodes are accepted. -/
example : (do let r ← (List.range 60).foldlM (fun (r : R64M) i => r.add (65536 * i)) R64M.create
              let r ← (List.range 20).foldlM (fun (r : R64M) i => r.add (16777216 * (i + 1))) r
              let r ← (List.range 10).foldlM (fun (r : R64M) i => r.add (4294967296 * (i + 1))) r
              r.internalValidate) = .ok true := by decide +kernel

/-- A free list that begins outside the array is not accepted. -/
example : (do let r ← c127two
              R64M.internalValidate { r with art := { r.art with heap := { r.art.heap with first := updTy r.art.heap.first .n4 3 } } }) = .ok false := by decide +kernel

/-- Two keys of a node with the same child are not accepted, nor is a leaf that is not below its key. -/
def c127bad (f : Node ArtRef → Node ArtRef) : Out Bool := do
  let r ← c127two
  match r.art.root with
  | some ref => do
    let x ← r.art.heap.peekInner (r.art.heap.deref ref)
    let H ← r.art.heap.pokeInner (r.art.heap.deref ref) x.1 (f x.2)
    R64M.internalValidate { r with art := { r.art with heap := H } }
  | none => .fail

example : c127bad (fun n => n) = .ok true ∧
    c127bad (fun n => match n with | .n4 [p, q] => .n4 [p, (q.1, p.2)] | n => n) = .ok false ∧
    c127bad (fun n => match n with | .n4 [p, q] => .n4 [(p.1, q.2), (q.1, p.2)] | n => n) = .ok false ∧
    c127bad (fun n => match n with | .n4 [p, q] => .n4 [q, p] | n => n) = .ok false ∧
    c127bad (fun n => match n with | .n4 [p, _] => .n4 [p] | n => n) = .ok false := by decide +kernel

/-- Bytes whose only array has the values 6 and 5: they are read, and the bitmap is not accepted. -/
example : (do let x ← R64M.portableDeserialize ([1, 0, 0, 0, 0, 0, 0, 0] ++ [1, 0, 0, 0, 58, 48, 0, 0, 1, 0, 0, 0, 0, 0, 1, 0, 16, 0, 0, 0, 6, 0, 5, 0]) 32
              match x with
              | .inl _ => Out.fail
              | .inr y => y.1.internalValidate) = .ok false := by decide +kernel

end CRoaring.Props
