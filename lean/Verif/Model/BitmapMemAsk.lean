import Verif.Model.BitmapMemQuery
import Verif.Model.Iter64

/-! More questions about bitmaps in memory, as in Model/BitmapMemQuery.lean: ranks of many values into an array of the caller, iteration
with a callback, and the index of Jaccard. -/

namespace CRoaring

/-- `*(ans++) = v` for the values of a list (src/roaring.c:2628, and the loops of `container_rank_many`), into an array of the caller. -/
def writeOut (ans : List Nat) (pos : Nat) : List Nat → Out (List Nat)
  | [] => .ok ans
  | v :: l => if pos < ans.length then writeOut (ans.set pos v) (pos + 1) l else .oob

/-- The loop of `roaring_bitmap_rank_many`: src/roaring.c:2611-2631.  `.fail`: more than `fuel` rounds. -/
def rbRankManyLoopBuf (r : RaBuf) : Nat → Nat → Nat → List Nat → List Nat → Nat → Out (List Nat)
  | _, _, _, [], ans, _ => .ok ans
  | 0, _, _, _ :: _, _, _ => .fail
  | fuel + 1, i, size, x :: xs, ans, pos =>
    if i < r.size then do
      let c ← loadCell r.mem i
      if x / 65536 > c.1 then rbRankManyLoopBuf r fuel (i + 1) (u64 (size + containerCard c.2)) (x :: xs) ans pos
      else if x / 65536 = c.1 then do
        let p := containerRankMany size (x :: xs) c.2
        let ans ← writeOut ans pos p.1
        rbRankManyLoopBuf r fuel i size p.2 ans (pos + p.1.length)
      else do
        let ans ← writeOut ans pos [size]
        rbRankManyLoopBuf r fuel i size xs ans (pos + 1)
    else .ok ans

/-- `roaring_bitmap_rank_many`: src/roaring.c:2605-2632; at most one round per container and per query. -/
def rbRankManyBuf (r : RaBuf) (xs ans : List Nat) : Out (List Nat) := rbRankManyLoopBuf r (r.size + xs.length + 1) 0 0 xs ans 0

/-- The loop of `roaring_iterate`, src/roaring.c:1615-1620, and that of its 64-bit variant, 1627-1633; `n` cells are left, `g` calls the
callback for the values of a container. -/
def rbIterateLoopBuf {σ : Type} (g : σ → Nat → Container → σ × Bool) (mem : List RCell) : Nat → Nat → σ → Out (σ × Bool)
  | 0, _, s => .ok (s, true)
  | n + 1, i, s => do
    let c ← loadCell mem i
    let p := g s (c.1 <<< 16) c.2
    if !p.2 then .ok (p.1, false) else rbIterateLoopBuf g mem n (i + 1) p.1

/-- `roaring_iterate`: src/roaring.c:1611-1621. -/
def rbIterateBuf {σ : Type} (f : σ → Nat → σ × Bool) (s : σ) (r : RaBuf) : Out (σ × Bool) :=
  rbIterateLoopBuf (fun s base c => containerIterate f s base c) r.mem r.size 0 s

/-- `roaring_iterate64`: src/roaring.c:1623-1634. -/
def rbIterate64Buf {σ : Type} (f : σ → Nat → σ × Bool) (high : Nat) (s : σ) (r : RaBuf) : Out (σ × Bool) :=
  rbIterateLoopBuf (fun s base c => containerIterate64 f s base high c) r.mem r.size 0 s

/-- `roaring_bitmap_jaccard_index`: src/roaring.c:2798-2804: the two numbers that are divided. -/
def rbJaccardBuf (x1 x2 : RaBuf) : Out (Nat × Nat) := do
  let c1 ← rbCardinalityBuf x1
  let c2 ← rbCardinalityBuf x2
  let inter ← rbAndCardinalityBuf x1 x2
  .ok (inter, u64 ((c1 : Int) + c2 - inter))

end CRoaring
