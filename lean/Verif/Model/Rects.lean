import Verif.Model.Rules
import Verif.Model.LeafShapPy

/-!
# Merging rectangles

Models the helpers of /repo/acv_explainers/utils.py:1102-1306 for merging the rectangles of a region: `find_nbor_r`, `extend_rec_r`,
`is_subset`, `find_mergable`, `remove_rule`, `return_largest_rectangle`, `return_best`, `return_adjacent_rec`,
`overapprox_rectangle`, `overapprox_rule` and `return_edges`.

A rectangle is an array `(d, 2)`, the list of its `d` rows. `random.shuffle` is an arbitrary oracle. Simplifications: exact rationals;
`rec_a == []` of `is_subset` on an array and an empty list is False (numpy before 1.25).
-/

namespace Acv

/-- `r[k, 0]`. -/
def Box.lo (r : Box) (k : Nat) : ℚ := (r.getD k (0, 0)).1

/-- `r[k, 1]`. -/
def Box.hi (r : Box) (k : Nat) : ℚ := (r.getD k (0, 0)).2

/-- `rec_b[l, 0] <= rec_a[l, 0] and rec_b[l, 1] >= rec_a[l, 1]`, utils.py:1112. -/
def coversAt (a b : Box) (l : Nat) : Bool := decide (b.lo l ≤ a.lo l) && decide (a.hi l ≤ b.hi l)

/-- `find_nbor_r`, utils.py:1102-1130: the axes and the sides of `rec_a` (false: 0, true: 1). -/
def findNborR (a b : Box) (S : List Nat) : List (Nat × Bool) :=
  S.filterMap fun k =>
    let add := S.all fun l => decide (k = l) || coversAt a b l
    if a.lo k = b.hi k then (if add then some (k, false) else none)
    else if a.hi k = b.lo k then (if add then some (k, true) else none)
    else none

/-- `rec_a[k, dim[i]] = rec_b[k, dim[i]]`, utils.py:1143. -/
def setSideR (b : Box) (a : Box) (kd : Nat × Bool) : Box :=
  a.set kd.1 (if kd.2 then (a.lo kd.1, b.hi kd.1) else (b.lo kd.1, a.hi kd.1))

/-- `rec_a` after utils.py:1134-1143. -/
def extendUnion (a b : Box) (S : List Nat) (axs : List (Nat × Bool)) : Box :=
  if S.all fun k => decide (k ∈ axs.map Prod.fst) || coversAt a b k then axs.foldl (setSideR b) a else a

/-- `rec_remain` for one subset of the other columns, utils.py:1149-1163; `none` when `merge` is False. `u` is the extended `rec_a`. -/
def remainPart (u b : Box) (S : List Nat) (axs : List (Nat × Bool)) (power : List Nat) : Option Box :=
  S.mapM fun k =>
    if k ∈ axs.map Prod.fst then some (b.lo k, b.hi k)
    else if k ∈ power then (if b.lo k = u.lo k then none else some (b.lo k, u.lo k))
    else (if b.hi k = u.hi k then none else some (u.hi k, b.hi k))

/-- `extend_rec_r`, utils.py:1133-1168. -/
def extendRecR (a b : Box) (S : List Nat) (axs : List (Nat × Bool)) : Box × List Box :=
  let u := extendUnion a b S axs
  (u, (powerset (S.filter fun i => decide (i ∉ axs.map Prod.fst))).filterMap fun power => remainPart u b S axs power)

/-- `is_subset` on two arrays, utils.py:1171-1179. -/
def isSubsetR (a b : Box) : Bool := (List.range a.length).all fun i => coversAt a b i

/-- `find_mergable`, utils.py:1182-1193: the first rectangle of the list that is a neighbour, the union and the remaining parts. -/
def findMergable (a : Box) (sets : List Box) (S : List Nat) : Option (Box × Box × List Box) :=
  (sets.find? fun b => decide (findNborR a b S ≠ [])).map fun b => (b, extendRecR a b S (findNborR a b S))

/-- `np.isclose` with its default tolerances. -/
def isClose (u v : ℚ) : Bool := decide (|u - v| ≤ 1 / 10 ^ 8 + |v| / 10 ^ 5)

/-- `np.allclose(r, rule)` on arrays of the same shape. -/
def allCloseR (r rule : Box) : Bool := (r.zip rule).all fun pq => isClose pq.1.1 pq.2.1 && isClose pq.1.2 pq.2.2

/-- `remove_rule`, utils.py:1195-1199: `pop` of the first rectangle close to the given one. -/
def removeRuleR (rule : Box) (sets : List Box) : List Box := sets.eraseP fun r => allCloseR r rule

/-- The loop of `return_largest_rectangle`, utils.py:1208-1233, with `fuel = max_step + 1 - step`. `shuffle i` is the permutation drawn
in round `i`. `none`: `rule_sets[0]` raises on an empty list. -/
def largestLoop (p : Box) (S : List Nat) (shuffle : Nat → List Box → List Box) : Nat → Nat → Nat → List Box → Option (List Box)
  | 0, _, _, sets => some sets
  | fuel + 1, i, size, sets =>
    if i ≤ size then
      match sets with
      | [] => none
      | rule :: rest =>
        match (findMergable rule (rule :: rest) S).filter fun f => !isSubsetR p f.1 with
        | some (b, u, parts) =>
          largestLoop p S shuffle fuel (i + 1) (size + 1 + parts.length)
            (shuffle i (removeRuleR b (removeRuleR rule (rule :: rest))) ++ [u] ++ parts)
        | none =>
          largestLoop p S shuffle fuel (i + 1) size (shuffle i (removeRuleR rule (rule :: rest)) ++ [rule])
    else some sets

/-- `return_largest_rectangle`, utils.py:1202-1233. -/
def largestRectangle (p : Box) (sets : List Box) (S : List Nat) (shuffle : Nat → List Box → List Box) : Option (List Box) :=
  largestLoop p S shuffle 5001 0 sets.length sets

/-- `r[S]`, utils.py:1237-1238. -/
def projBox (S : List Nat) (r : Box) : Box := S.map fun s => r.getD s (0, 0)

/-- `return_best`, utils.py:1236-1243: the first final rectangle that contains the rule, or the last one; and the list. -/
def returnBest (p : Box) (sets : List Box) (S : List Nat) (shuffle : Nat → List Box → List Box) : Option (Box × List Box) := do
  let out ← largestRectangle (projBox S p) (sets.map (projBox S)) (List.range S.length) shuffle
  let r ← (out.find? fun r => isSubsetR (projBox S p) r).or out.getLast?
  return (r, out)

/-- `return_adjacent_rec`, utils.py:1252-1264. The loop runs over `rule_sets` while its body removes rectangles from it: round `i`
reads position `i` of the current list, and the loop ends at the first position that does not exist. Returns `adj` and the final
`rule_sets`. `depth` bounds the recursion: every call has one rectangle less. -/
def adjacentAux (S : List Nat) : Nat → List Box → List Box → List Box × List Box
  | 0, adj, sets => (adj, sets)
  | depth + 1, adj, sets =>
    (List.range sets.length).foldl (fun st i =>
      match st.2[i]? with
      | none => st
      | some r =>
        if st.1.any fun rule => decide (findNborR rule r S ≠ []) then adjacentAux S depth (st.1 ++ [r]) (removeRuleR r st.2)
        else st) (adj, sets)

/-- `return_adjacent_rec`, utils.py:1252-1264. -/
def adjacentRec (adj sets : List Box) (S : List Nat) : List Box := (adjacentAux S (sets.length + 1) adj sets).1

/-- `overapprox_rectangle`, utils.py:1267-1272, for a first rectangle and the others. -/
def overapproxRectangle (r : Box) (rs : List Box) : Box :=
  (List.range r.length).map fun k => (rs.foldl (fun v s => min v (s.lo k)) (r.lo k), rs.foldl (fun v s => max v (s.hi k)) (r.hi k))

/-- `overapprox_rule`, utils.py:1275-1279. -/
def overapproxRule (p : Box) (sets : List Box) (S : List Nat) : Box :=
  match adjacentRec [projBox S p] (sets.map (projBox S)) (List.range S.length) with
  | [] => []
  | r :: rs => overapproxRectangle r rs

/-- `return_edges`, utils.py:1282-1299, for rectangles with `d` rows. -/
def returnEdges (d : Nat) (rects : List Box) : List (List ℚ) :=
  (powerset (List.range d)).flatMap fun S => rects.map fun r => (List.range d).map fun j => if j ∈ S then r.hi j else r.lo j

end Acv
