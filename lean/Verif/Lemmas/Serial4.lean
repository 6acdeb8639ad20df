import Verif.Lemmas.Serial3

set_option linter.unusedSimpArgs false
set_option linter.unusedVariables false

/-! The native format; the effect of the byte limit. -/

namespace CRoaring
open Spec

theorem containerSizeInBytes_le {c : Container} (h : CInv c) : containerSizeInBytes c ≤ 131074 := by
  cases c with
  | bitset b => simp only [containerSizeInBytes, NWORDS]; omega
  | array l => have := h.2; simp only [containerSizeInBytes]; omega
  | run rs => have := RunOK.length_le h; simp only [containerSizeInBytes, runSerializedSize]; omega

theorem sizes_le {r : Bitmap} (h : ∀ p ∈ r, CInv p.2) :
    (r.map fun p => containerSizeInBytes p.2).sum ≤ r.length * 131074 := by
  induction r with
  | nil => simp
  | cons p t ih =>
    have h1 := ih (fun q hq => h q (by simp [hq]))
    have h2 := containerSizeInBytes_le (h p (by simp))
    simp only [List.map_cons, List.sum_cons, List.length_cons, Nat.succ_mul]
    omega

theorem rbPortableSize_le {r : Bitmap} (h : BInv r) : rbPortableSize r ≤ 9000000000 := by
  have h1 := bp_iff.1 h
  have h2 := sizes_le (fun p hp => (h1.2.2 p hp).1)
  have h3 := h.length_le
  have h4 : raPortableHeaderSize r ≤ 4 + 4 + 8 * r.length + (r.length + 7) / 8 := by
    rw [raPortableHeaderSize]; split
    · split <;> omega
    · omega
  rw [rbPortableSize_eq]
  have h5 : r.length * 131074 ≤ 65536 * 131074 := Nat.mul_le_mul_right _ h3
  omega

/-- The bytes of the native format. -/
def natBytes (r : Bitmap) : List UInt8 :=
  if rbPortableSize r < rbCardinality r * 4 + 4 then leBytes 1 SER_CONTAINER ++ serBytes r
  else leBytes 1 SER_ARRAY ++ (leBytes 4 (rbCardinality r) ++ (vals r).flatMap (leBytes 4))

theorem natVals_length {r : Bitmap} (h : BInv r) : (vals r).length = rbCardinality r := by
  rw [vals_eq h, rbCardinality_eq h]; rfl

theorem natBytes_length {r : Bitmap} (h : BInv r) : (natBytes r).length = rbSizeInBytes r := by
  have ht : ∀ p ∈ r, CTyped p.2 := fun p hp => ((bp_iff.1 h).2.2 p hp).1.typed
  rw [natBytes, rbSizeInBytes]
  split
  · simp [leBytes_length, serBytes_length ht]; omega
  · simp only [List.length_append, leBytes_length]
    rw [flatMap_length_const (leBytes_length 4), natVals_length h]
    omega

theorem rbSerialize_eq {r : Bitmap} (h : BInv r) {mem : List UInt8} (hm : rbSizeInBytes r ≤ mem.length) :
    rbSerialize r mem = .ok (natBytes r ++ mem.drop (rbSizeInBytes r), rbSizeInBytes r) := by
  have ht : ∀ p ∈ r, CTyped p.2 := fun p hp => ((bp_iff.1 h).2.2 p hp).1.typed
  have hl := natBytes_length h
  rw [rbSerialize, rbToUint32_eq h]
  have h0 : ∀ bs : List UInt8, memWrite mem 0 bs = memWrite (wst mem 0 []).1 (wst mem 0 []).2 bs := by
    intro bs; simp [wst]
  by_cases h1 : rbPortableSize r < rbCardinality r * 4 + 4
  · rw [if_pos h1]
    have e : rbSizeInBytes r = rbPortableSize r + 1 := by rw [rbSizeInBytes]; rw [if_pos h1]
    rw [h0, memWrite_wst (by simp [leBytes_length]; omega), ok_bind, rbPortableSerialize_eq ht (by
      simp [wst, leBytes_length]; omega), ok_bind, pure_ok, e, natBytes, if_pos h1]
    congr 2
    rw [List.nil_append]
    simp only [wst, List.take_zero, List.nil_append, leBytes_length, Nat.zero_add]
    rw [List.take_append_of_le_length (by simp [leBytes_length]), List.take_of_length_le (by simp [leBytes_length]),
      List.drop_append, List.drop_of_length_le (by simp [leBytes_length]), leBytes_length, List.drop_drop]
    simp
    congr 1
    omega
  · rw [if_neg h1]
    have e : rbSizeInBytes r = rbCardinality r * 4 + 4 + 1 := by rw [rbSizeInBytes]; rw [if_neg h1]
    have hc : rbCardinality r < 4294967296 := by
      have := rbPortableSize_le h; omega
    have e2 : ∀ d : List UInt8, (wst mem 0 d).2 = d.length := by intro d; simp [wst]
    rw [Nat.mod_eq_of_lt hc, h0, memWrite_wst (by simp [leBytes_length]; omega), ok_bind, List.nil_append]
    have w2 := @memWrite_wst mem 0 (leBytes 1 SER_ARRAY) (leBytes 4 (rbCardinality r))
      (by simp [leBytes_length]; omega)
    rw [e2, leBytes_length] at w2
    rw [w2, ok_bind]
    have w3 := @memWrite_wst mem 0 (leBytes 1 SER_ARRAY ++ leBytes 4 (rbCardinality r)) ((vals r).flatMap (leBytes 4))
      (by simp only [List.length_append, leBytes_length]
          rw [flatMap_length_const (leBytes_length 4), natVals_length h]; omega)
    rw [e2, List.length_append, leBytes_length, leBytes_length] at w3
    rw [w3, ok_bind, pure_ok]
    have e3 : leBytes 1 SER_ARRAY ++ leBytes 4 (rbCardinality r) ++ (vals r).flatMap (leBytes 4) = natBytes r := by
      rw [natBytes, if_neg h1]; simp
    rw [e3]
    simp only [wst, List.take_zero, List.nil_append, Nat.zero_add]
    rw [hl, e]
    congr 2
    omega

theorem memb_vals {r : Bitmap} (h : BInv r) (x : Nat) : x ∈ vals r ↔ bhas r x = true := by
  rw [vals_eq h, mem_enum]
  exact ⟨fun h => h.2, fun hx => ⟨bhas_lt h hx, hx⟩⟩

/-- Reading the native format back. -/
theorem deserialize_at {r : Bitmap} (h : BInv r) (tail : List UInt8) :
    ∃ r', BInv r' ∧ (∀ x, bhas r' x = bhas r x) ∧ rbDeserialize (natBytes r ++ tail) = .ok r' ∧
      ∀ maxbytes, rbSizeInBytes r ≤ maxbytes → rbDeserializeSafe (natBytes r ++ tail) maxbytes = .ok r' := by
  have hat : At (natBytes r ++ tail) 0 (natBytes r) := ⟨[], tail, by simp, rfl⟩
  have hl := natBytes_length h
  generalize natBytes r ++ tail = buf at hat ⊢
  rw [natBytes] at hat
  by_cases h1 : rbPortableSize r < rbCardinality r * 4 + 4
  · rw [if_pos h1] at hat
    have e : rbSizeInBytes r = rbPortableSize r + 1 := by rw [rbSizeInBytes]; rw [if_pos h1]
    have a1 := readLE_at hat.left (by decide)
    have a2 := hat.right' (leBytes_length 1 _)
    rw [Nat.zero_add] at a2
    refine ⟨r, h, fun _ => rfl, ?_, ?_⟩
    · rw [rbDeserialize, a1, ok_bind, if_neg (by decide), if_pos rfl, rbPortableDeserialize, rbPortableDeserializeSafe,
        raPortableDeserialize_at h a2 (by have := rbPortableSize_le h; rw [SIZE_MAX]; omega)]
      rfl
    · intro maxbytes hm
      rw [rbDeserializeSafe, if_neg (by omega), a1, ok_bind, if_neg (by decide), if_pos rfl, rbPortableDeserializeSafe,
        raPortableDeserialize_at h a2 (by omega)]
      rfl
  · rw [if_neg h1] at hat
    have e : rbSizeInBytes r = rbCardinality r * 4 + 4 + 1 := by rw [rbSizeInBytes]; rw [if_neg h1]
    have hc : rbCardinality r < 4294967296 := by
      have := rbPortableSize_le h; omega
    have a1 := readLE_at hat.left (by decide)
    have a2 := hat.right' (leBytes_length 1 _)
    rw [Nat.zero_add] at a2
    have a3 := readLE_at a2.left (by omega)
    have a4 := a2.right' (leBytes_length 4 _)
    have hlt : ∀ x ∈ vals r, x < 4294967296 := by
      intro x hx
      exact bhas_lt h ((memb_vals h x).1 hx)
    have a5 := deserAddLoop_at (vals r) (r := rbCreate) (ctx := none) hlt a4
    rw [natVals_length h] at a5
    have hs := rbAddManyLoop_spec (vals r) (r := rbCreate) trivial (CtxOK.none _) hlt
    refine ⟨rbAddManyLoop rbCreate none (vals r), hs.1, ?_, ?_, ?_⟩
    · intro x
      rw [hs.2, Bool.eq_iff_iff]
      simp [rbCreate, bhas_nil, memb_vals h]
    · rw [rbDeserialize, a1, ok_bind, if_pos rfl, a3, ok_bind, a5]
    · intro maxbytes hm
      rw [rbDeserializeSafe, if_neg (by omega), a1, ok_bind, if_pos rfl, if_neg (by omega), a3, ok_bind,
        if_neg (by omega), a5]

/-! ### A larger byte limit -/

/-- `x` is a failure, or agrees with `y`. -/
def FLe {α : Type} (x y : Out α) : Prop := x = .fail ∨ x = y

theorem FLe.rfl' {α : Type} {x : Out α} : FLe x x := .inr rfl

theorem FLe.bind {α β : Type} {x y : Out α} {f g : α → Out β} (h : FLe x y) (hf : ∀ a, FLe (f a) (g a)) :
    FLe (x >>= f) (y >>= g) := by
  rcases h with rfl | rfl
  · exact .inl rfl
  · cases x with
    | oob => exact .inr rfl
    | fail => exact .inr rfl
    | ok a => exact hf a

theorem FLe.ite {α : Type} {c : Prop} [Decidable c] {x y x' y' : Out α} (h1 : FLe x x') (h2 : FLe y y') :
    FLe (if c then x else y) (if c then x' else y') := by
  by_cases h : c
  · simpa [h] using h1
  · simpa [h] using h2

theorem FLe.max {α : Type} {m m' n : Nat} {x x' : Out α} (hm : m ≤ m') (h : FLe x x') :
    FLe (if n > m then .fail else x) (if n > m' then .fail else x') := by
  by_cases h1 : n > m
  · rw [if_pos h1]; exact .inl rfl
  · rw [if_neg h1, if_neg (by omega)]; exact h

theorem FLe.max_and {α : Type} {c : Prop} [Decidable c] {m m' n : Nat} {x x' : Out α} (hm : m ≤ m') (h : FLe x x') :
    FLe (if c ∧ n > m then .fail else x) (if c ∧ n > m' then .fail else x') := by
  by_cases h1 : c ∧ n > m
  · rw [if_pos h1]; exact .inl rfl
  · rw [if_neg h1, if_neg (fun h => h1 ⟨h.1, by omega⟩)]; exact h

theorem deserLoop_mono {buf : List UInt8} {m m' kc : Nat} {runs : Option Nat} (hm : m ≤ m') (n : Nat) :
    ∀ {k off rb : Nat}, FLe (deserLoop buf m runs kc n k off rb) (deserLoop buf m' runs kc n k off rb) := by
  induction n with
  | zero => intro k off rb; exact .rfl'
  | succ n ih =>
    intro k off rb
    rw [deserLoop, deserLoop]
    refine FLe.bind .rfl' fun tmp => FLe.bind .rfl' fun b => FLe.ite (FLe.max hm ?_) (FLe.ite (FLe.max hm ?_)
      (FLe.max hm ?_))
    · exact FLe.bind .rfl' fun c => ih.bind fun _ => .rfl'
    · exact FLe.bind .rfl' fun nr => FLe.max hm (FLe.bind .rfl' fun c => ih.bind fun _ => .rfl')
    · exact FLe.bind .rfl' fun c => ih.bind fun _ => .rfl'

theorem raPortableDeserialize_mono {buf : List UInt8} {base m m' : Nat} (hm : m ≤ m') :
    FLe (raPortableDeserialize buf base m) (raPortableDeserialize buf base m') := by
  rw [raPortableDeserialize, raPortableDeserialize]
  refine FLe.max hm (FLe.bind .rfl' fun cookie => FLe.ite .rfl' (FLe.bind ?_ fun h => FLe.ite .rfl' (FLe.ite .rfl'
    (FLe.max_and hm (FLe.max hm (FLe.bind .rfl' fun keys => FLe.bind ?_ fun o =>
      (deserLoop_mono hm _).bind fun _ => .rfl'))))))
  · exact FLe.ite .rfl' (FLe.max hm .rfl')
  · exact FLe.ite (FLe.max hm .rfl') .rfl'

/-- A serialized bitmap that has been cut short is rejected. -/
theorem truncated {r : Bitmap} (hb : BInv r) {m : Nat} (hm : m < rbPortableSize r) (tail : List UInt8) :
    raPortableDeserialize (serBytes r ++ tail) 0 m = .fail := by
  have ht : ∀ p ∈ r, CTyped p.2 := fun p hp => ((bp_iff.1 hb).2.2 p hp).1.typed
  have hl := serBytes_length ht
  have hat : At (serBytes r ++ tail) 0 (serBytes r) := ⟨[], tail, by simp, rfl⟩
  have h1 := raPortableDeserialize_at hb hat (Nat.le_refl _)
  have h2 := raPortableDeserialize_mono (buf := serBytes r ++ tail) (base := 0) (m := m) (m' := rbPortableSize r) (by omega)
  rw [h1] at h2
  rcases h2 with h2 | h2
  · exact h2
  · rcases raPortableDeserialize_total (buf := serBytes r ++ tail) (base := 0) (maxbytes := m)
      (by simp; omega) with ⟨e, _⟩ | ⟨r', n, e, _, _, hn, _⟩
    · exact e
    · rw [e] at h2
      simp only [Out.ok.injEq, Prod.mk.injEq] at h2
      omega

end CRoaring
