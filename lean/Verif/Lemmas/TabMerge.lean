import Verif.Lemmas.Tab

/-!
# Runs of bytes in a row may be joined
-/

namespace FT.Props
open FT FT.Off

/-- Bytes in front of fields, joined to the bytes that are there. -/
def joinRaw (bs : Bytes) : Tab → Tab
  | .raw c r => .raw (bs ++ c) r
  | .nil => .raw bs .nil
  | .null w r => .raw bs (.null w r)
  | .link w v o off c r => .raw bs (.link w v o off c r)

/-- Neighbouring runs of bytes joined, in a table and all tables below it. -/
def mergeRaw : Tab → Tab
  | .nil => .nil
  | .raw bs r => joinRaw bs (mergeRaw r)
  | .null w r => .null w (mergeRaw r)
  | .link w v o off c r => .link w v o off (mergeRaw c) (mergeRaw r)

/-- Fields in a row, joined. -/
def joinTab : Tab → Tab → Tab
  | .nil, u => u
  | .raw bs r, u => joinRaw bs (joinTab r u)
  | .null w r, u => .null w (joinTab r u)
  | .link w v o off c r, u => .link w v o off c (joinTab r u)

theorem joinRaw_joinRaw (a b : Bytes) (t : Tab) : joinRaw a (joinRaw b t) = joinRaw (a ++ b) t := by
  cases t <;> simp [joinRaw]

theorem joinTab_joinRaw (b : Bytes) (t u : Tab) : joinTab (joinRaw b t) u = joinRaw b (joinTab t u) := by
  cases t with
  | raw c r => simp only [joinTab, joinRaw_joinRaw]; rfl
  | nil => rfl
  | null => rfl
  | link => rfl

theorem merge_append : ∀ (t u : Tab), mergeRaw (t.append u) = joinTab (mergeRaw t) (mergeRaw u)
  | .nil, u => rfl
  | .raw bs r, u => by simp only [Tab.append, mergeRaw, merge_append r u, joinTab_joinRaw]
  | .null w r, u => by simp only [Tab.append, mergeRaw, merge_append r u, joinTab]
  | .link w v o off c r, u => by simp only [Tab.append, mergeRaw, merge_append r u, joinTab]

theorem size_joinRaw (b : Bytes) (t : Tab) : Off.size (joinRaw b t) = b.length + Off.size t := by
  cases t <;> simp [joinRaw, Off.size, Nat.add_assoc]
theorem size_merge : ∀ (t : Tab), Off.size (mergeRaw t) = Off.size t
  | .nil => rfl
  | .raw bs r => by simp only [mergeRaw, size_joinRaw, size_merge r, Off.size]
  | .null w r => by simp only [mergeRaw, size_merge r, Off.size]
  | .link w v o off c r => by simp only [mergeRaw, size_merge r, Off.size]

theorem descSize_joinRaw (b : Bytes) (t : Tab) (s : Bool) : descSize (joinRaw b t) s = descSize t s := by
  cases t <;> simp [joinRaw, descSize]
theorem descSize_merge : ∀ (t : Tab) (s : Bool), descSize (mergeRaw t) s = descSize t s
  | .nil, s => rfl
  | .raw bs r, s => by simp only [mergeRaw, descSize_joinRaw, descSize_merge r, descSize]
  | .null w r, s => by simp only [mergeRaw, descSize_merge r, descSize]
  | .link w v o off c r, s => by simp only [mergeRaw, descSize_merge r, descSize_merge c, size_merge, descSize]

theorem shallow_joinRaw (b : Bytes) (t : Tab) : Off.shallow (joinRaw b t) = Off.shallow (.raw b t) := by
  cases t with
  | raw c r => simp only [joinRaw, Off.shallow]; cases Off.shallow r <;> simp
  | nil => rfl
  | null => rfl
  | link => rfl
theorem shallow_merge : ∀ (t : Tab), Off.shallow (mergeRaw t) = Off.shallow t
  | .nil => rfl
  | .raw bs r => by simp only [mergeRaw, shallow_joinRaw, Off.shallow, shallow_merge r]
  | .null w r => by simp only [mergeRaw, Off.shallow, shallow_merge r]
  | .link w v o off c r => by simp only [mergeRaw, Off.shallow, shallow_merge r]

theorem serDesc_joinRaw (b : Bytes) (t : Tab) (s : Bool) : serDesc (joinRaw b t) s = serDesc t s := by
  cases t <;> simp [joinRaw, serDesc]
theorem serDesc_merge : ∀ (t : Tab) (s : Bool), serDesc (mergeRaw t) s = serDesc t s
  | .nil, s => rfl
  | .raw bs r, s => by simp only [mergeRaw, serDesc_joinRaw, serDesc_merge r, serDesc]
  | .null w r, s => by simp only [mergeRaw, serDesc_merge r, serDesc]
  | .link w v o off c r, s => by simp only [mergeRaw, serDesc_merge r, serDesc_merge c, shallow_merge, serDesc]

/-- A function on results. -/
def onOk (f : Tab → Tab) : Res Tab → Res Tab
  | .ok t => .ok (f t)
  | .err => .err
  | .panic => .panic

theorem resolve_joinRaw (b : Bytes) (t : Tab) (base d v : Nat) : resolve (joinRaw b t) base d v = onOk (joinRaw b) (resolve t base d v) := by
  cases t with
  | nil => rfl
  | raw c r => simp only [joinRaw, resolve]; cases resolve r base d v <;> rfl
  | null w r => simp only [joinRaw, resolve]; cases resolve r base d v <;> rfl
  | link w v' o off c r =>
    simp only [joinRaw, resolve]
    cases setOff w o ((if v' then v else d) - base) with
    | err => rfl
    | panic => rfl
    | ok x =>
      simp only
      cases resolve c (if v' then v else d) ((if v' then v else d) + Off.size c) ((if v' then v else d) + Off.size c + descSize c false) with
      | err => rfl
      | panic => rfl
      | ok c' =>
        simp only
        cases resolve r base (if v' then d else d + total c) (if v' then v + total c else v) <;> rfl

theorem resolve_merge : ∀ (t : Tab) (base d v : Nat), resolve (mergeRaw t) base d v = onOk mergeRaw (resolve t base d v)
  | .nil, _, _, _ => rfl
  | .raw bs r, base, d, v => by
    simp only [mergeRaw, resolve_joinRaw, resolve, resolve_merge r]
    cases resolve r base d v <;> rfl
  | .null w r, base, d, v => by
    simp only [mergeRaw, resolve, resolve_merge r]
    cases resolve r base d v <;> rfl
  | .link w v' o off c r, base, d, v => by
    have ht : total (mergeRaw c) = total c := by simp only [total, size_merge, descSize_merge]
    simp only [mergeRaw, resolve, resolve_merge r, resolve_merge c, size_merge, descSize_merge, ht]
    cases setOff w o ((if v' then v else d) - base) with
    | err => rfl
    | panic => rfl
    | ok x =>
      simp only
      cases resolve c (if v' then v else d) ((if v' then v else d) + Off.size c) ((if v' then v else d) + Off.size c + descSize c false) with
      | err => rfl
      | panic => rfl
      | ok c' =>
        simp only [onOk]
        cases resolve r base (if v' then d else d + total c) (if v' then v + total c else v) <;> rfl

theorem toBytes_merge (t : Tab) : Off.toBytes (mergeRaw t) = Off.toBytes t := by
  unfold Off.toBytes
  rw [resolve_merge, size_merge, descSize_merge]
  cases resolve t 0 (Off.size t) (Off.size t + descSize t false) with
  | err => rfl
  | panic => rfl
  | ok t' =>
    simp only [onOk]
    show (do
      let top ← Off.shallow (mergeRaw t')
      let direct ← serDesc (mergeRaw t') false
      let others ← serDesc (mergeRaw t') true
      pure (top ++ direct ++ others) : Res Bytes) = _
    rw [shallow_merge, serDesc_merge, serDesc_merge]
    rfl

end FT.Props
