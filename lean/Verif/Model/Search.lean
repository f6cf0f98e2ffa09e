import Verif.Model.LeafShapPy

/-!
# Searches of sufficient explanations

Models `global_sdp_rf` (/repo/acv_explainers/cyext_acv/cyext_acv.pyx:6163-6286), `global_sdp_clf` (2872-3068),
`global_sdp_clf_approx` (3787-3990), `sufficient_expl_rf` (6293-6381) and what their callers
`ACXplainer.importance_sdp_rf`, `ACXplainer.sufficient_expl_rf` (/repo/acv_explainers/acv_agnosticX.py:849-923,1074-1147) and
`ACVTree.importance_sdp_clf` (/repo/acv_explainers/acv_tree.py:99-149) do around them. `global_ddp_rf`, `global_cdp_rf`,
`global_ddp_intv`, `global_cdp_intv` and `sufficient_cxpl_rf` are the same loops with another probability, so the probability is
a parameter: `sdp i S` is the probability of sample `i` for the columns `S`. Each comparison of the code with a NaN probability
is false; since the best value starts at 0 and never decreases, a NaN behaves like any negative value.

Simplifications: exact rationals; `tqdm` dropped.
-/

namespace Acv

/-- `va_id`, cyext_acv.pyx:6201-6214: the ungrouped columns of the search space, then the groups that meet it.
`C[0] != []` with an empty list `C` raises `IndexError` in the code; here it is treated like `[[]]`. -/
def searchPlayers (C : List (List Nat)) (space : List Nat) : List (List Nat) :=
  if C.headD [] ≠ [] then
    (space.filter fun i => decide (i ∉ C.flatten)).map ([·]) ++ C.filter fun g => g.any fun c => decide (c ∈ space)
  else space.map ([·])

/-- The loop that fills `power`, cyext_acv.pyx:6219-6226: one list of column sets per size, with the cut
`if max_size >= 2**15: break`. -/
def enumSizes (players : List (List Nat)) (cap : Nat) : List Nat → Nat → List (List (List Nat))
  | [], _ => []
  | k :: ks, count =>
    let pb := (combos k players).map List.flatten
    let count' := count + pb.length
    pb :: if cap ≤ count' then [] else enumSizes players cap ks count'

/-- `2**15`, cyext_acv.pyx:6225. -/
def enumCap : Nat := 2 ^ 15

/-- The lists scanned by `for s_0 in range(minimal, m + 1): ... power_cpp[s_0]`, cyext_acv.pyx:6219-6237. `none` when
`power_cpp[s_0]` would be read out of bounds (undefined behaviour; `IndexError` in the Python version). Simplified: `none` even if
the loop would stop before that read; `Verif.Model.ManyColumns` has the reads in the order of the code. -/
def levelsRf (players : List (List Nat)) (minimal : Nat) : Option (List (List (List Nat))) :=
  let power := enumSizes players enumCap (List.range (players.length + 1)) 0
  (List.range' minimal (players.length + 1 - minimal)).mapM fun s => power[s]?

/-- The lists scanned by `global_sdp_clf`, cyext_acv.pyx:2925-2946: sizes from `minimal`, then `range(len(power))`. -/
def levelsClf (players : List (List Nat)) (minimal : Nat) : List (List (List Nat)) :=
  enumSizes players enumCap (List.range' minimal (players.length + 1 - minimal)) 0

/-- `sdp[i]`, `len_s_star[i]`, `s_star[i, :]`. -/
structure Best where
  sdp : ℚ
  len : Nat
  star : Nat → Int

/-- Initial values, cyext_acv.pyx:6174,6183,6230. -/
def Best.init : Best := ⟨0, 0, fun _ => -1⟩

/-- `for s in range(S_size): s_star[i, s] = S[s]`, cyext_acv.pyx:6264-6265: later cells keep their old content. -/
def writeRow (S : List Nat) (star : Nat → Int) : Nat → Int :=
  fun s => match S[s]? with
    | some c => (c : Int)
    | none => star s

/-- One candidate for one sample, cyext_acv.pyx:6259-6274. `cols` is `X.shape[1]`. (The loop that writes -1 from `len` to
`X.shape[1]` is empty, since `len = X.shape[1]` there.) -/
def consider (cols : Nat) (S : List Nat) (v : ℚ) (b : Best) : Best :=
  let b1 := if b.sdp ≤ v then ⟨v, S.length, writeRow S b.star⟩ else b
  if S.length = cols then ⟨1, S.length, writeRow S b1.star⟩ else b1

/-- Update one cell of a table. -/
def upd {α : Type} (f : Nat → α) (i : Nat) (a : α) : Nat → α := fun j => if j = i then a else f j

/-- `sdp_ba`, cyext_acv.pyx:6247-6256: the probabilities of the rows selected by the boolean mask, in increasing order. -/
def maskVals (sdp : Nat → List Nat → ℚ) (N : Nat) (R : List Nat) (S : List Nat) : List ℚ :=
  ((List.range N).filter fun i => decide (i ∈ R)).map fun i => sdp i S

/-- `for i in range(N): ... R_buf[i] ... sdp_ba[i]`, cyext_acv.pyx:6258-6274. -/
def scanRows (cols : Nat) (S : List Nat) (R : List Nat) (vals : List ℚ) (best : Nat → Best) : Nat → Best :=
  (R.zip vals).foldl (fun best p => upd best p.1 (consider cols S p.2 (best p.1))) best

/-- `std_remove(R.begin(), R.end(), v)` then `R.pop_back()`, cyext_acv.pyx:6283-6284: the kept elements move to the front, the
tail keeps its old content, one element is dropped. -/
def removePop (R : List Nat) (v : Nat) : List Nat :=
  let kept := R.filter fun a => decide (a ≠ v)
  (kept ++ R.drop kept.length).dropLast

/-- The state between sizes: the table of best sets, the unresolved samples `R`, and `sdp_global` (before division). -/
structure Batch where
  best : Nat → Best
  R : List Nat
  glob : Nat → Nat

/-- The columns recorded for a sample: `s_star[i, :len_s_star[i]]`. -/
def Best.cols (b : Best) : List Int := (List.range b.len).map b.star

/-- What `importance_msdp_clf_search` does to the row of a resolved sample, /repo/acv_explainers/utils_sdp.py:470-471: the cells
after the recorded columns become -1. The Cython searches leave the row as it is. -/
def clearTail (b : Best) : Best := { b with star := fun s => if s < b.len then b.star s else -1 }

/-- After all sets of a size, cyext_acv.pyx:6276-6284 (`fin = id`) and utils_sdp.py:467-476 (`fin = clearTail`). -/
def closeLevel (fin : Best → Best) (pi : ℚ) (st : Batch) : Batch :=
  let r := st.R.filter fun i => decide (pi ≤ (st.best i).sdp)
  { best := fun i => if i ∈ r then fin (st.best i) else st.best i
    glob := fun j => st.glob j + (r.map fun i => (st.best i).cols.count (j : Int)).sum
    R := r.foldl removePop st.R }

/-- One size: `vals R S` gives the probabilities of the samples of `R`, in the order of `R`. -/
def scanLevel (fin : Best → Best) (vals : List Nat → List Nat → List ℚ) (cols : Nat) (pi : ℚ) (cands : List (List Nat)) (st : Batch) :
    Batch :=
  closeLevel fin pi { st with best := cands.foldl (fun best S => scanRows cols S st.R (vals st.R S) best) st.best }

/-- The loop over sizes with `if (R.size() == 0 or S_size >= X.shape[1]/2) and stop: break`, cyext_acv.pyx:6236-6286.
`half` is the smallest integer that is at least `X.shape[1]/2` (it depends on the Cython language level whether `/` truncates). -/
def searchLoop (fin : Best → Best) (vals : List Nat → List Nat → List ℚ) (cols : Nat) (pi : ℚ) (stop : Bool)
    (half : Nat) : List (List (List Nat)) → Batch → Batch
  | [], st => st
  | cands :: ls, st =>
    let st' := scanLevel fin vals cols pi cands st
    let ssize := (cands.getLast?.map List.length).getD 0
    if stop && (decide (st'.R = []) || decide (half ≤ ssize)) then st' else
      searchLoop fin vals cols pi stop half ls st'

/-- Initial state, cyext_acv.pyx:6172-6193. -/
def Batch.init (N : Nat) : Batch := ⟨fun _ => Best.init, List.range N, fun _ => 0⟩

/-- `global_sdp_rf`, cyext_acv.pyx:6163-6286. `none`: out-of-bounds read of `power_cpp`. -/
def globalSdpRf (sdp : Nat → List Nat → ℚ) (N cols : Nat) (C : List (List Nat)) (space : List Nat) (pi : ℚ) (minimal : Nat)
    (stop : Bool) (half : Nat) : Option Batch :=
  (levelsRf (searchPlayers C space) minimal).map fun levels =>
    searchLoop id (maskVals sdp N) cols pi stop half levels (Batch.init N)

/-- `ACXplainer.importance_sdp_rf`, acv_agnosticX.py:898-923: all columns if there are at most 10, else the 10 most important
ones (`order` is the order of the columns by decreasing importance). -/
def importanceSdpRf (sdp : Nat → List Nat → ℚ) (N cols : Nat) (order : List Nat) (C : List (List Nat)) (pi : ℚ) (minimal : Nat)
    (stop : Bool) (half : Nat) : Option Batch :=
  globalSdpRf sdp N cols C ((if cols > 10 then order else List.range cols).take 10) pi minimal stop half

/-- `global_sdp_clf` (`space` = all columns) and `global_sdp_clf_approx`, cyext_acv.pyx:2872-3068,3787-3990: the probability is
written directly for `R_buf[i]`. `global_sdp_clf` keeps all groups of `C` as players; here an empty group is dropped. -/
def globalSdpClf (sdp : Nat → List Nat → ℚ) (N cols : Nat) (C : List (List Nat)) (space : List Nat) (pi : ℚ) (minimal : Nat)
    (stop : Bool) (half : Nat) : Batch :=
  searchLoop id (fun R S => R.map fun i => sdp i S) cols pi stop half (levelsClf (searchPlayers C space) minimal) (Batch.init N)

/-- `importance_msdp_clf_search`, utils_sdp.py:395-484. `none`: `IndexError`. -/
def msdpSearch (sdp : Nat → List Nat → ℚ) (N cols : Nat) (C : List (List Nat)) (space : List Nat) (pi : ℚ) (minimal : Nat)
    (stop : Bool) (half : Nat) : Option Batch :=
  (levelsRf (searchPlayers C space) minimal).map fun levels =>
    searchLoop clearTail (fun R S => R.map fun i => sdp i S) cols pi stop half levels (Batch.init N)

/-- The returned `sdp_global / X.shape[0]`, cyext_acv.pyx:6286. -/
def Batch.importance (st : Batch) (N : Nat) (j : Nat) : ℚ := (st.glob j : ℚ) / N

/-! ## All sufficient explanations -/

/-- The test `subset`, cyext_acv.pyx:6362-6371: some earlier set has all its elements in `S`. -/
def hasSubset (found : List (List Int × ℚ)) (S : List Nat) : Bool :=
  found.any fun F => F.1.all fun c => decide (c ∈ S.map ((↑) : Nat → Int))

/-- One candidate for one sample, cyext_acv.pyx:6360-6378: `sufficient[i]` and `sufficient_sdp[i]` grow together. -/
def suffStep (pi : ℚ) (v : ℚ) (S : List Nat) (found : List (List Int × ℚ)) : List (List Int × ℚ) :=
  if pi ≤ v then if hasSubset found S then found else found ++ [(S.map (↑), v)] else found

/-- `sufficient_expl_rf` for one sample, cyext_acv.pyx:6346-6378: the lists start with the sentinels `[-1]` and `-1`. -/
def suffScan (sdp : List Nat → ℚ) (pi : ℚ) (levels : List (List (List Nat))) : List (List Int × ℚ) :=
  levels.foldl (fun found cands => cands.foldl (fun found S => suffStep pi (sdp S) S found) found) [([-1], -1)]

/-- `ACXplainer.sufficient_expl_rf`, acv_agnosticX.py:1074-1147, for one sample: pairs of a set and its SDP, without the
sentinels. -/
def sufficientExpl (sdp : List Nat → ℚ) (cols : Nat) (order : List Nat) (C : List (List Nat)) (pi : ℚ) (minimal : Nat) :
    Option (List (List Int × ℚ)) :=
  (levelsRf (searchPlayers C ((if cols > 10 then order else List.range cols).take 10)) minimal).map fun levels =>
    (suffScan sdp pi levels).drop 1

/-- The returned `sdp_global / K` (cyext_acv.pyx:6374-6381) from the sets found for each sample: the code counts while it
appends. `none` is NaN. -/
def suffGlobal (found : List (List (List Int))) (j : Nat) : Option ℚ :=
  npDiv ((found.map fun f => (f.map fun S => S.count (j : Int)).sum).sum : Nat) ((found.map List.length).sum : Nat)

/-! ## Tables of explanations -/

/-- `get_active_null_coalition_list` for one sample, /repo/acv_explainers/utils.py:820-827. The order of a Python set of
integers is not specified; here it is increasing. -/
def activeNull (m : Nat) (row : Nat → Int) (len : Nat) : List Int × List Int :=
  let s := (List.range len).map row
  (s, ((List.range m).map ((↑) : Nat → Int)).filter fun c => decide (c ∉ s))

/-- `compute_local_sdp_one`, acv_agnosticX.py:1313-1330: `value_counts() / len(sufficient_coal)`. -/
def localSdpOne (coal : List (List Nat)) (j : Nat) : ℚ := (coal.flatten.count j : ℚ) / coal.length

/-- `compute_local_sdp`, acv_agnosticX.py:1311-1340: `none` is NaN (`0 / 0`). -/
def localSdp (all : List (List (List Nat))) (j : Nat) : Option ℚ :=
  let (sum, nb) := all.foldl (fun (p : ℚ × Nat) coal => if coal.length = 0 then (p.1, p.2 - 1) else (p.1 + localSdpOne coal j, p.2))
    (0, all.length)
  npDiv sum nb

end Acv
