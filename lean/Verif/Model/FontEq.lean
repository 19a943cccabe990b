import Verif.Model.AllTables

/-!
Comparing fonts (`==`): src/font.rs:55-64, src/table_store.rs:49-53, 72, 535-550.
-/

namespace FT.Store
open FT

variable {V : Type}

/-- `LazyItem`'s derived `PartialEq` (table_store.rs:49) and that of `Table` (table_store.rs:546-550), which leaves out
the raw bytes. `veq` compares values: `LoadedTable`'s derived `PartialEq` (table_store.rs:72) follows the pointers. -/
def Item.same (veq : V → V → Bool) (h1 h2 : List V) : Item → Item → Bool
  | .unloaded a, .unloaded b => decide (a = b)
  | .loaded t, .loaded u => decide (t.tag = u.tag) && (match h1[t.ptr]?, h2[u.ptr]? with
    | some a, some b => veq a b
    | _, _ => false)
  | _, _ => false

/-- `PartialEq` of `TableSet` (table_store.rs:535-544). -/
def St.same (veq : V → V → Bool) (s1 s2 : St V) : Bool :=
  decide (s1.store.length = s2.store.length) &&
    (s1.store.zip s2.store).all fun x => decide (x.1.1 = x.2.1) && Item.same veq s1.heap s2.heap x.1.2 x.2.2

end FT.Store

namespace FT.Whole
open FT FT.Store FT.Cli

/-- `PartialEq` of `Font` (font.rs:55-64, derived): the version, the tables and the remembered number of glyphs. -/
def Font.same (veq : Val More → Val More → Bool) (f g : Font) : Bool :=
  decide (f.version = g.version) && f.tables.same veq g.tables && decide (f.numGlyphs = g.numGlyphs)

end FT.Whole
