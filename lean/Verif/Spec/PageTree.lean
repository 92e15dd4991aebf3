import Verif.Model.Parser
/-!
# The page tree of a PDF document (ISO 32000-1, 7.7.3)

On a table of objects: `tbl n` is the dictionary with object number `n`.
-/
namespace Verif.Spec

abbrev Table := Nat → Option (List (Key × Obj))

mutual
/-- the node `id` has parent `par` and its leaf pages are `leaves`, from left to right -/
inductive PageNode (tbl : Table) : Option Nat → Nat → List Nat → Prop
  | page {par id d} : tbl id = some d → dget (.str c!"Type") d = some (.bytes b!"/Page") →
      dget (.str c!"Parent") d = some (.ref (par : Nat)) → PageNode tbl (some par) id [id]
  | pages {par : Option Nat} {id d} {kids leaves : List Nat} : tbl id = some d →
      dget (.str c!"Type") d = some (.bytes b!"/Pages") →
      dget (.str c!"Parent") d = par.map (fun p : Nat => .ref p) →
      dget (.str c!"Kids") d = some (.seq (kids.map fun k : Nat => .ref k)) →
      dget (.str c!"Count") d = some (.int leaves.length) →
      PageNodes tbl id kids leaves → PageNode tbl par id leaves
inductive PageNodes (tbl : Table) : Nat → List Nat → List Nat → Prop
  | nil {par} : PageNodes tbl par [] []
  | cons {par id ids l ls} : PageNode tbl (some par) id l → PageNodes tbl par ids ls →
      PageNodes tbl par (id :: ids) (l ++ ls)
end

end Verif.Spec
