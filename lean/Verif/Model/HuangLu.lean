import Mathlib.Data.List.Sort
import Mathlib.Logic.Function.Basic

/-!
# Zone packing (`detail/huang_lu.hpp`) and row remapping of stretched components
(`component_stretcher.hpp:202-275`)

`std::size_t` arithmetic is natural number arithmetic (no overflow). `std::unordered_map<size_t, size_t>` is a
partial function.
-/

namespace Verif
namespace HuangLu

/-- An item: key and size. -/
abbrev Item := ℕ × ℕ

/-- The loop over the remaining tasks for one agent (`huang_lu.hpp:62-72`): taken items, remaining items and the
final `curr_bundle_size`. -/
def fillOne (T : ℕ) : ℕ → List Item → List Item × List Item × ℕ
  | cur, [] => ([], [], cur)
  | cur, it :: ts =>
    if cur + it.2 ≤ T then
      let r := fillOne T (cur + it.2) ts
      (it :: r.1, r.2)
    else
      let r := fillOne T cur ts
      (r.1, it :: r.2.1, r.2.2)

/-- `assignment[it->first] = i` for the taken items (`huang_lu.hpp:66`). -/
def record (asg : ℕ → Option ℕ) (i : ℕ) (taken : List Item) : ℕ → Option ℕ :=
  taken.foldl (fun a it => Function.update a it.1 (some i)) asg

/-- The loop over agents (`huang_lu.hpp:60-76`), `n` agents left, current index `i`. -/
def fillAgents (T : ℕ) : ℕ → ℕ → List Item → (ℕ → Option ℕ) → (ℕ → Option ℕ) × List Item
  | 0, _, ts, asg => (asg, ts)
  | n + 1, i, ts, asg =>
    let r := fillOne T 0 ts
    let asg' := record asg i r.1
    if r.2.2 = 0 then (asg', r.2.1) else fillAgents T n (i + 1) r.2.1 asg'

/-- The threshold search (`huang_lu.hpp:56-88`). -/
def search (sizes : List Item) (agents : ℕ) (left right : ℕ) (asg best : ℕ → Option ℕ) : ℕ → Option ℕ :=
  if h : left < right then
    let T := left + (right - left) / 2
    let r := fillAgents T agents 0 sizes asg
    if r.2.length = 0 then
      if T = left then r.1 else search sizes agents left T r.1 r.1
    else
      if T = T + 1 then best else search sizes agents (T + 1) right r.1 best
  else best
  termination_by right - left

/-- `max_item` (`huang_lu.hpp:44-48`). -/
def maxItem (sizes : List Item) : ℕ := sizes.foldl (fun m it => max m it.2) 0
/-- `sum` (`huang_lu.hpp:44-48`). -/
def total (sizes : List Item) : ℕ := sizes.foldl (fun s it => s + it.2) 0

/-- Initial `left` (`huang_lu.hpp:49-50`). -/
def start (sizes : List Item) (agents : ℕ) : ℕ := max ((total sizes + agents - 1) / agents) (maxItem sizes)

/-- `huang_lu` (`huang_lu.hpp:35-90`). -/
def huangLu (sizes : List Item) (agents : ℕ) : ℕ → Option ℕ :=
  let sorted := sizes.insertionSort fun a b => b.2 ≤ a.2
  let left := start sorted agents
  search sorted agents left (2 * left) (fun _ => none) (fun _ => none)

/-- `line_mapping` (`component_stretcher.hpp:226-236`): row `i` of a component, whose zone is packed on agent
`agents[i]`, goes to the next free row of that agent. -/
def lineMapping : List ℕ → (ℕ → ℕ) → List ℕ
  | [], _ => []
  | a :: as, cnt => cnt a :: lineMapping as (Function.update cnt a (cnt a + 1))

/-- Row remapping of a component whose rows have zones `zone` (list by row), `zs` being the content of
`zones.zone_sizes` in iteration order (`component_stretcher.hpp:220-236`). A missing key reads as `0`
(`unordered_map::operator[]`). -/
def remap (zone : List ℕ) (zs : List Item) (stretch : ℕ) : List ℕ :=
  let m := huangLu zs stretch
  lineMapping (zone.map fun z => (m z).getD 0) fun _ => 0

/-- The reported `rows_amount` (`component_stretcher.hpp:272-273`). -/
def reported (zs : List Item) : ℕ := maxItem zs

end HuangLu
end Verif
