import Verif.Model.Basic

/-!
Parquet files.
Models `src/litdata/processing/readers.py` lines 95-133 (`ParquetReader.remap_items`) and
`src/litdata/streaming/item_loader.py` lines 586-805 (`ParquetLoader`).

A parquet file is the list of its row groups, a row an arbitrary value. What `pyarrow` and `polars` do with the bytes is not
modelled.
-/

namespace LitData

/-- A parquet file: its row groups. -/
abbrev ParquetFile (R : Type) := List (List R)

/-- `os.path.basename`. -/
def basename (p : String) : String := String.ofList (p.toList.reverse.takeWhile (· != '/')).reverse

/-- The path of a shard (`processing/readers.py:107,120`). -/
def shardPath (cache : String) (numRows start stop : Nat) (name : String) : String :=
  String.ofList (cache.toList ++ '/' :: (Nat.toDigits 10 numRows ++ '/' :: (Nat.toDigits 10 start ++ '_' :: (Nat.toDigits 10 stop ++ '_' :: name.toList))))

/-- A file written unless there is one (`processing/readers.py:123-129`). -/
def writeNew {R : Type} (fs : String → Option (List R)) (path : String) (rows : List R) : String → Option (List R) :=
  match fs path with
  | some _ => fs
  | none => fun p => if p = path then some rows else fs p

/-- The loop over `range(0, num_rows, self.num_rows)` (`processing/readers.py:118-129`) from `start` on, with the file system
after it. `fuel` is at least the number of turns. -/
def remapFile {R : Type} (cache : String) (numRows : Nat) (name : String) (rows : List R) :
    Nat → Nat → (String → Option (List R)) → List String × (String → Option (List R))
  | 0, _, fs => ([], fs)
  | fuel + 1, start, fs =>
    if start < rows.length then
      let stop := min (start + numRows) rows.length
      let path := shardPath cache numRows start stop name
      let r := remapFile cache numRows name rows fuel (start + numRows) (writeNew fs path ((rows.drop start).take (stop - start)))
      (path :: r.1, r.2)
    else ([], fs)

/-- `remap_items` (`processing/readers.py:95-133`). `range` refuses the step 0; a missing input raises `FileNotFoundError`. -/
def remapItems {R : Type} (cache : String) (numRows : Nat) : List String → (String → Option (List R)) → Py (List String × (String → Option (List R)))
  | [], fs => .ok ([], fs)
  | f :: files, fs => match fs f with
    | none => .error .fileNotFound
    | some rows =>
      if numRows = 0 then .error .valueError
      else
        let a := remapFile cache numRows (basename f) rows (rows.length + 1) 0 fs
        match remapItems cache numRows files a.2 with
        | .error e => .error e
        | .ok b => .ok (a.1 ++ b.1, b.2)

/-- The fields of `ParquetLoader` (`streaming/item_loader.py:620-622`): `_df`, `_chunk_row_groups` and
`_chunk_row_group_item_read_count`. A file opened stays readable after it is removed. -/
structure ParquetState (R : Type) where
  df : Nat → Option (ParquetFile R)
  groups : Nat → Nat → Option (List R)
  count : Nat → Nat → Nat

/-- The fields after `setup`. -/
def ParquetState.init {R : Type} : ParquetState R := ⟨fun _ => none, fun _ _ => none, fun _ _ => 0⟩

/-- Update at a pair. -/
def upd2 {α : Type} (f : Nat → Nat → α) (a b : Nat) (x : α) : Nat → Nat → α := fun i j => if i = a ∧ j = b then x else f i j

/-- The file of a chunk: the one opened before, or the one at the path (`streaming/item_loader.py:703-704`, 759-760). -/
def openDf {R : Type} (st : ParquetState R) (k : Nat) (file : Option (ParquetFile R)) : Option (ParquetFile R) :=
  match st.df k with
  | some f => some f
  | none => file

/-- A row group read as often as it has rows is dropped (`streaming/item_loader.py:731-736`). -/
def parquetRelease {R : Type} (st : ParquetState R) (k gi n : Nat) : ParquetState R :=
  if st.count k gi ≥ n then { st with groups := upd2 st.groups k gi none, count := upd2 st.count k gi 0 } else st

/-- `_get_item_with_low_memory` (`streaming/item_loader.py:685-740`). `file` is the file at the path, if there is one. -/
def parquetLow {R : Type} (file : Option (ParquetFile R)) (st : ParquetState R) (k row : Nat) : Py (R × ParquetState R) :=
  match openDf st k file with
  | none => .error .fileNotFound
  | some f =>
    let st := { st with df := fun i => if i = k then some f else st.df i }
    match f[0]? with
    | none => .error .indexError
    | some g0 =>
      if g0.length = 0 then .error .zeroDivision
      else
        let gi := row / g0.length
        let ri := row % g0.length
        match (match st.groups k gi with
          | some g => some (g, { st with count := upd2 st.count k gi (st.count k gi + 1) })
          | none => match f[gi]? with
            | none => none
            | some g => some (g, { st with groups := upd2 st.groups k gi (some g), count := upd2 st.count k gi 1 })) with
        | none => .error .indexError
        | some (g, st) =>
          let st := parquetRelease st k gi g0.length
          match g[ri]? with
          | none => .error .indexError
          | some r => .ok (r, st)

/-- `_get_item` (`streaming/item_loader.py:742-764`). -/
def parquetHigh {R : Type} (file : Option (ParquetFile R)) (st : ParquetState R) (k row : Nat) : Py (R × ParquetState R) :=
  match openDf st k file with
  | none => .error .fileNotFound
  | some f =>
    match f.flatten[row]? with
    | none => .error .indexError
    | some r => .ok (r, { st with df := fun i => if i = k then some f else st.df i })

/-- The end of `load_item_from_chunk` (`streaming/item_loader.py:674-678`), once the file has been there. -/
def parquetLoad {R : Type} (lowMemory : Bool) (file : Option (ParquetFile R)) (st : ParquetState R) (k index begin : Nat) : Py (R × ParquetState R) :=
  if index < begin then .error .indexError
  else if lowMemory then parquetLow file st k (index - begin) else parquetHigh file st k (index - begin)

/-- `close` (`streaming/item_loader.py:796-805`) and the first part of `delete` (lines 777-783). -/
def parquetClose {R : Type} (st : ParquetState R) (k : Nat) : ParquetState R :=
  ⟨fun i => if i = k then none else st.df i, fun i j => if i = k then none else st.groups i j, fun i j => if i = k then 0 else st.count i j⟩

/-- `pre_load_chunk` (`streaming/item_loader.py:639-647`) with `pre_load_chunk=True`. -/
def parquetPreLoad {R : Type} (lowMemory : Bool) (file : Option (ParquetFile R)) (st : ParquetState R) (k : Nat) : ParquetState R :=
  if lowMemory then st
  else match st.df k, file with
    | none, some f => { st with df := fun i => if i = k then some f else st.df i }
    | _, _ => st

end LitData
