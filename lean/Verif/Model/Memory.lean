import Verif.Model.SeriesHist
import Verif.Model.SpectrumObj

/-! # Arrays in memory

The other model files treat arrays as values.  In Python an ndarray argument is passed by reference, and
`core_engine.convert_to_vector` returns the caller's own array object when it is already one-dimensional, so the objects of
the toolbox can share memory with their caller.  This file models that: arrays live in a memory, objects hold addresses. -/

namespace Verif

/-- The ndarrays that exist; an address is an index. -/
structure Mem (K : Type) where
  cells : List (Arr K)

variable {K : Type}

/-- The array at an address. -/
def Mem.read (m : Mem K) (a : Nat) : Arr K := m.cells.getD a ⟨[0], []⟩

/-- A new array. -/
def Mem.alloc (m : Mem K) (x : Arr K) : Nat × Mem K := (m.cells.length, ⟨m.cells ++ [x]⟩)

/-- The caller's assignment `array[i] = v` (flat index `i`). -/
def Mem.poke (m : Mem K) (a i : Nat) (v : K) : Mem K :=
  ⟨m.cells.set a { m.read a with data := (m.read a).data.set i v }⟩

/-- What a caller passes for an `ArrayLike` argument: a number, a list, or an ndarray (by reference). -/
inductive Src (K : Type) where
  | num (x : K)
  | list (xs : List K)
  | ref (a : Nat)

/-- The value of an argument. -/
def Src.value (m : Mem K) : Src K → PyIn K
  | .num x => .num x
  | .list xs => .list xs
  | .ref a => .nd (m.read a)

/-- core_engine.py:10-27 `convert_to_array_type`: `np.asarray` of a number or a list is a new array, an ndarray is returned
itself. -/
def toArrRef (x : Src K) (m : Mem K) : Nat × Mem K :=
  match x with
  | .num v => m.alloc ⟨[1], [v]⟩
  | .list xs => m.alloc ⟨[xs.length], xs⟩
  | .ref a => (a, m)

/-- core_engine.py:30-53 `convert_to_vector`: `x.flatten()` is a new array, otherwise the array itself is returned. -/
def toVectorRef (x : Src K) (m : Mem K) : Nat × Mem K :=
  let (a, m) := toArrRef x m
  let arr := m.read a
  if (size2 arr).2 = 1 then m.alloc ⟨[arr.data.length], arr.data⟩ else (a, m)

/-- Attributes of a `WaveHeights` object (series.py:33-35). -/
structure WHRef where
  hwave : Nat
  nwave : Nat
  twave : Nat

/-- The values an object's attributes have at the moment. -/
def WHRef.view (s : WHRef) (m : Mem K) : WH K := ⟨m.read s.hwave, s.nwave, m.read s.twave⟩

section
variable [Field K] [LinearOrder K]

/-- series.py:29-35 `WaveHeights.__init__`. -/
def WHRef.init (hwave twave : Src K) (m : Mem K) : Except PyErr WHRef × Mem K :=
  let (h, m) := toVectorRef hwave m
  let (t, m) := toVectorRef twave m
  if (m.read h).shape = [] then (.error .typeError, m) else (.ok ⟨h, (m.read h).len, t⟩, m)

/-- series.py:43-52 `sort`: fancy indexing (core_time.py:90, 92) makes new arrays, which are bound to the attributes; on an
exception nothing is bound.  (Simplification: arrays that are never bound to a name are not kept in the memory.) -/
def WHRef.sort (A : Argsort K) (s : WHRef) (m : Mem K) : Except PyErr Unit × WHRef × Mem K :=
  match sortWaveParams A (.nd (m.read s.hwave)) (.nd (m.read s.twave)) with
  | .ok (h, t) =>
    let (a, m) := m.alloc (arr1 h)
    let (b, m) := m.alloc (arr1 t)
    (.ok (), { s with hwave := a, twave := b }, m)
  | .error e => (.error e, s, m)

/-- series.py:120-145 `highest_waves`, 76-87 `get_Hs`: the sort, then a computation that binds nothing. -/
def WHRef.getHs [FloorRing K] (A : Argsort K) (s : WHRef) (m : Mem K) : Except PyErr (K × K) × WHRef × Mem K :=
  match s.sort A m with
  | (.ok (), s, m) => (highestWavesParams (.nd (m.read s.hwave)) (.nd (m.read s.twave)) (1 / 3), s, m)
  | (.error e, s, m) => (.error e, s, m)

/-- The object and the memory after one method call (series.py:43-298; see `WH.step`). -/
def WHRef.step [FloorRing K] (A : Argsort K) (op : WHOp K) (s : WHRef) (m : Mem K) : WHRef × Mem K :=
  match op with
  | .sort | .getHs | .getH2pRayleigh | .getExceedance _ | .highestWaves _ | .plotExceedance => (s.sort A m).2
  | .getHrms | .getHmax | .plotHist => (s, m)
  | .plotExceedanceRayleigh normalize =>
    let r1 := if normalize then s.getHs A m else (.ok (0, 0), s, m)
    match r1 with
    | (.error _, s1, m1) => (s1, m1)
    | (.ok _, s1, m1) =>
      match s1.getHs A m1 with
      | (.error _, s2, m2) => (s2, m2)
      | (.ok _, s2, m2) => (s2.sort A m2).2

/-- Something that happens to a `WaveHeights` object: a method call, or an in-place assignment by the caller to one of the
caller's arrays. -/
inductive WHEvent (K : Type) where
  | call (op : WHOp K)
  | poke (a i : Nat) (v : K)

/-- One event. -/
def WHRef.event [FloorRing K] (A : Argsort K) (st : WHRef × Mem K) : WHEvent K → WHRef × Mem K
  | .call op => st.1.step A op st.2
  | .poke a i v => (st.1, st.2.poke a i v)

/-- A sequence of events. -/
def WHRef.run [FloorRing K] (A : Argsort K) (evs : List (WHEvent K)) (st : WHRef × Mem K) : WHRef × Mem K :=
  evs.foldl (WHRef.event A) st

/-- Attributes of a `Series` object (series.py:326-329, 587, 33-35). -/
structure SeriesRef (K : Type) where
  time : Nat
  xTime : Nat
  nt : Nat
  dt : K
  tCross : List K
  wh : WHRef

/-- The values the attributes have at the moment. -/
def SeriesRef.view (s : SeriesRef K) (m : Mem K) : SeriesObj K :=
  { time := m.read s.time, xTime := m.read s.xTime, nt := s.nt, dt := s.dt, tCross := s.tCross, wh := s.wh.view m }

/-- Binding the attributes `tCross`, `hwave`, `twave`, `nwave` to the (new) arrays of `o` (series.py:587-596: every
`np.delete` makes a new array). -/
def SeriesRef.bindWaves (s : SeriesRef K) (o : SeriesObj K) (m : Mem K) : SeriesRef K × Mem K :=
  let (a, m) := m.alloc o.wh.hwave
  let (b, m) := m.alloc o.wh.twave
  ({ s with tCross := o.tCross, wh := ⟨a, o.wh.nwave, b⟩ }, m)

/-- series.py:317-340 `Series.__init__`: `self.time` and `self.xTime` are the arrays returned by `convert_to_vector`; the
values are those of `SeriesObj.init`. -/
def SeriesRef.init (time xTime : Src K) (m : Mem K) : Except PyErr (SeriesRef K) × Mem K :=
  let r := SeriesObj.init (time.value m) (xTime.value m)
  let (a, m) := toVectorRef time m
  let (b, m) := toVectorRef xTime m
  match r with
  | .error e => (.error e, m)
  | .ok o =>
    let (s, m) := SeriesRef.bindWaves ⟨a, b, o.nt, o.dt, [], ⟨0, 0, 0⟩⟩ o m
    (.ok s, m)

end

/-- The object and the memory after one method call (series.py:348-626; see `SeriesObj.step`). -/
noncomputable def SeriesRef.step (A : Argsort ℝ) (s : SeriesRef ℝ) (m : Mem ℝ) : SeriesOp → SeriesRef ℝ × Mem ℝ
  | .waves op =>
    let (wh, m) := s.wh.step A op m
    ({ s with wh := wh }, m)
  | .determineIndividualWaves ty fc mw =>
    match (s.view m).individualWaves ty fc mw with
    | .ok (_, _, o) => s.bindWaves o m
    | .error _ => (s, m)
  | _ => (s, m)

/-- Something that happens to a `Series` object. -/
inductive SeriesEvent where
  | call (op : SeriesOp)
  | poke (a i : Nat) (v : ℝ)

/-- One event. -/
noncomputable def SeriesRef.event (A : Argsort ℝ) (st : SeriesRef ℝ × Mem ℝ) : SeriesEvent → SeriesRef ℝ × Mem ℝ
  | .call op => st.1.step A st.2 op
  | .poke a i v => (st.1, st.2.poke a i v)

/-- A sequence of events. -/
noncomputable def SeriesRef.run (A : Argsort ℝ) (evs : List SeriesEvent) (st : SeriesRef ℝ × Mem ℝ) : SeriesRef ℝ × Mem ℝ :=
  evs.foldl (SeriesRef.event A) st

/-- Attributes of a `Spectrum` (spectrum.py:47-50): `f` and `sVarDens` are references, the cached results are values
(`caches`; its own `f` and `sVarDens` are not used). -/
structure SpecRef where
  f : Nat
  sVarDens : Nat
  caches : SpecObj

/-- The values the attributes have at the moment. -/
def SpecRef.view (s : SpecRef) (m : Mem ℝ) : SpecObj :=
  { s.caches with f := (m.read s.f).data, sVarDens := m.read s.sVarDens }

/-- spectrum.py:31-56 `Spectrum.__init__` (see `SpecObj.init`). -/
noncomputable def SpecRef.init (f S : Src ℝ) (m : Mem ℝ) : Except PyErr SpecRef × Mem ℝ :=
  let r := SpecObj.init (f.value m) (S.value m)
  let (a, m) := toVectorRef f m
  let (b, m) := toVectorRef S m
  match r with
  | .error e => (.error e, m)
  | .ok o => (.ok ⟨a, b, o⟩, m)

/-- A method call (spectrum.py:64-456): reads the arrays, assigns cached results. -/
noncomputable def SpecRef.call (s : SpecRef) (m : Mem ℝ) (op : SpecOp) : Except PyErr ℝ × SpecRef :=
  ((((s.view m).call op).1), { s with caches := ((s.view m).call op).2 })

/-- Something that happens to a `Spectrum` object. -/
inductive SpecEvent where
  | call (op : SpecOp)
  | poke (a i : Nat) (v : ℝ)

/-- One event: a method changes no array. -/
noncomputable def SpecRef.event (st : SpecRef × Mem ℝ) : SpecEvent → SpecRef × Mem ℝ
  | .call op => ((st.1.call st.2 op).2, st.2)
  | .poke a i v => (st.1, st.2.poke a i v)

/-- A sequence of events. -/
noncomputable def SpecRef.run (evs : List SpecEvent) (st : SpecRef × Mem ℝ) : SpecRef × Mem ℝ :=
  evs.foldl SpecRef.event st

end Verif
