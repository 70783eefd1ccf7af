import Verif.Model.NetCDF

set_option autoImplicit false

/-!
# Specification: what a reader of the netCDF field file sees
-/

namespace Gusto
namespace NetCDF
variable {α P : Type}

/-- The entry `k` of the variable `time`. -/
def File.timeAt (f : File α) (k : ℕ) : Option α :=
  match f.vars.lookup "time" with
  | some (.time v) => v k
  | _ => none

/-- The entry `j` of a coordinate variable of a space. -/
def File.coordAt (f : File α) (coord space : String) (j : ℕ) : Option α :=
  match f.vars.lookup (coord ++ "_" ++ space) with
  | some (.coord _ v) => v j
  | _ => none

/-- The entry `j`, `k` of the values of a field. -/
def File.value (f : File α) (field : String) (j k : ℕ) : Option α := (f.groups.lookup field).bind fun g => g.values j k

/-- The file is a record of the dumps `ds` (time and state at each dump) of the scalar fields `fields`: `nodes` lists the nodes of
each space, the coordinate variables hold their coordinates in this order, and the column `k` of a field holds the values of the
field at these nodes at the `k`-th dump; nothing else is in the columns. -/
structure Records (f : File α) (coords : List (String × (P → α))) (nodes : String → List P) (fields : List Field)
    (ds : List (α × (String → P → α))) : Prop where
  length : f.length = ds.length
  time : ∀ k, f.timeAt k = ds[k]?.map Prod.fst
  coords : ∀ fld ∈ fields, ∀ c ∈ coords, ∀ j, f.coordAt c.1 fld.space j = (nodes fld.space)[j]?.map c.2
  values : ∀ fld ∈ fields, ∀ j k, f.value fld.name j k = ds[k]?.bind fun d => (nodes fld.space)[j]?.map (d.2 fld.name)

/-- A space is scalar-valued. -/
def IsScalar (dom : Dom α P) (space : String) : Prop := ∃ sp, dom.spaces.lookup space = some sp ∧ sp.components ≤ 1

/-- The names are usable: coordinate names are those of `Coordinates.__init__`; metadata keys, coordinate variables, the time and
the fields have different names. -/
structure GoodNames (dom : Dom α P) (toDump : List Field) : Prop where
  coords : ∀ c ∈ dom.coords, c.1 ∈ ["x", "y", "z", "lon", "lat", "h"]
  coordsNodup : (dom.coords.map Prod.fst).Nodup
  metaNodup : (dom.metadata.map Prod.fst).Nodup
  metaTime : "time" ∉ dom.metadata.map Prod.fst
  metaCoord : ∀ m ∈ dom.metadata, ∀ c ∈ dom.coords, ∀ fld ∈ toDump, m.1 ≠ c.1 ++ "_" ++ fld.space
  fieldsNodup : (toDump.map Field.name).Nodup
  fieldTime : ∀ fld ∈ toDump, fld.name ≠ "time"
  fieldMeta : ∀ fld ∈ toDump, fld.name ∉ dom.metadata.map Prod.fst
  fieldCoord : ∀ fld ∈ toDump, ∀ c ∈ dom.coords, ∀ g ∈ toDump, fld.name ≠ c.1 ++ "_" ++ g.space

/-- The domain of a run on `ranks` processes: all the spaces are distributed over them, those of the fields exist, and the spaces
registered so far are scalar ones. -/
structure GoodDomain (dom : Dom α P) (chi : List String) (toDump : List Field) (ranks : ℕ) : Prop where
  dist : ∀ s sp, dom.spaces.lookup s = some sp → sp.points.length = ranks
  exist : ∀ fld ∈ toDump, ∃ sp, dom.spaces.lookup fld.space = some sp
  chi : ∀ s ∈ chi, IsScalar dom s

/-- With parallel access every rank takes part in every write, in any order. -/
def GoodLibrary (lib : Library) (ranks : ℕ) : Prop :=
  lib.parallel = true → (∀ r ∈ lib.order, r < ranks) ∧ ∀ r < ranks, r ∈ lib.order

end NetCDF
end Gusto
