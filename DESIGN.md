# Formal model of Field3D in Lean 4 — design

Source: imageworks/Field3D at the pinned commit in `/repo` (read as text only; never built or run).
Model and proofs: `/verif/lean/Verif`, Lean 4.33.0 with Mathlib for ordered-field arithmetic.

## 1. Layout

* `Verif/Model/*.lean`   — the model: total, computable definitions, each with a comment
  citing the `/repo` file and lines it models and any simplification.
* `Verif/Proofs/*.lean`  — helper lemmas.
* `Verif/Spec/*.lean`    — specifications shared by several proof files (Ogawa trees, what was written to a file).
* `Verif/Props/*.lean`   — small independent specifications, the property theorems and, beside
  each, an `example` showing that a concrete non-trivial case meets its hypotheses.
* `Verif.lean` imports everything. `MANIFEST.json` maps properties to theorems.
* `seeded/LOG.jsonl` records wrong-program experiments made on a scratch copy of the model.

## 2. Modelling conventions

* C++ `int` voxel coordinates are unbounded `Int`; `size_t` counts are `Nat`. 32-bit overflow of
  coordinates is out of scope unless a property names it; C77 repeats the fields with the integer
  types of the source and shows up to which sizes the two agree. 64-bit wrap-around is modelled with
  `% 2^64` where the property is about it (Ogawa offsets, C77).
* Undefined behaviour (out-of-bounds access, null dereference, using an unloaded block) is a
  distinct outcome: accessors return `Option`/an error constructor, so "no out-of-bounds access" is
  a theorem, not an assumption.
* Floating point is exact: interpolation, filters, mappings and curves are modelled over a linear
  ordered field (ℚ). Rounding, NaN and infinities are outside the model.
* Voxel values are an arbitrary type (with decidable equality where the code compares values).
* Threads are interleavings of atomic steps (sequential consistency): one step per mutex-protected
  section or per unprotected shared access. Weak memory is outside the model.
* Files are byte lists or trees; the operating system's file API is assumed to behave (a write puts
  the bytes at the position, a read returns them). The HDF5 library is modelled by
  the few rules the code relies on (head of `Model/Hdf5`).
* The code that exists is modelled, including its defects. Where a property a user would rely on is
  false of the code, the theorem file proves the negation on a concrete witness and the strongest
  positive statement that holds; see section 5.

## 3. Plan per property

| id | model | proof |
|----|-------|-------|
| C01 | dense buffer as a list, index `i-ox + (j-oy)*sx + (k-oz)*sx*sy` | index bijection, refinement to a function by induction over the history |
| C02,C06 | block table (list of blocks: allocated flag, empty value, data list), all operations | representation invariant + abstraction function, induction over history |
| C03 | `blockId`, `getBlockCoord`, `getVoxelInBlock`, block counts | shift/mask arithmetic lemmas, injectivity |
| C04,C05 | `releaseBlocks` with edge `validSize`, `CheckAllEqual`, `CheckMaxAbs` | per block lemma, then the whole table |
| C07 | copy/assign of block vector over a heap of data buffers | independence over all later histories |
| C08 | three face buffers | as C01 per component |
| C09 | `setSize` overloads, `sizeChanged` | case analysis |
| C10–C14 | iterator state machines with `++`, `==`, begin/end | step function iterated = the list of voxels in order |
| C15,C16 | grain bounds, `indexToCoord`, `advance` | exact-cover lemmas |
| C17 | floor/offset conversions over ℚ | floor lemmas |
| C18–C21 | interpolators over ℚ | convexity, clamping |
| C22,C23 | `interpInfo`, `getVsMIPCoord` | case analysis, floor/shift arithmetic |
| C24–C29 | SparseFileManager as a transition system (cache list, hand, flags, memory) | inductive invariants; interleavings for C27 |
| C30–C34 | Ogawa bytes: writer as a sequence of positioned writes, reader as functions on the byte list | tree induction on the writer; prefix analysis for crashes |
| C35,C36 | F3D groups on Ogawa groups | list lemmas |
| C37–C42 | field I/O on the group level, thread state machines | round trip, invariants over schedules |
| C43,C44 | file objects as partition/layer lists | induction over write histories |
| C45–C48 | metadata maps, mapping samples, cache map | histories, round trips |
| C49–C53 | MIP resolution chain, separable filter, work queue, resampling | induction over levels, sums with non-negative weights |
| C43,C44 (detail) | `Out`/`In` objects; ghost list of partitions with the writes they hold | invariant over calls (`Files.Inv`), then the reader run on the rendered groups |
| C54–C64 | mappings, curves, sequence names, patterns, factory, reference counts, sampling, conversions, coordinate fitting, lazy load | direct proofs, induction, interleavings |

| C65 | sparse field over a heap of numbered buffers with alloc/free | invariant: live buffers = owned buffers, over all histories |
| C66 | the block cache transition system with three locks | progress measure with room; concrete deadlock without |
| C67 | the Ogawa readers on inconsistent files | witness: stored length beyond the buffer |
| C68 | `wsVoxelSize` of both mappings over ℚ | squared distances of transformed neighbours |
| C69 | ray/box slabs, ray/frustum planes, group bounds over ℚ | interval lemmas; witnesses for the exceptions |
| C70 | C30, C36–C38, C43, C46, C47 joined by the class dispatch (`Model/LayerIO`), dense, sparse and MIP fields | composition of the theorems |
| C71 | `isIdentical` and `extractSHRT` over ℚ, square root and angles as parameters (`Model/Identical`) | relations between sample lists by induction; orthonormalisation of a sheared matrix for the exception |
| C72 | `copyFrom`, `matchDefinition`, `sameDefinition` and `isIdentical` of fields as loops over two iterators (`Model/CopyFrom`) | loop invariant per voxel, reusing the dense, sparse and MAC models; invariant over histories of windows and mappings |
| C73 | `adjustedMIPFieldMapping`, `computeOffset`, `mappingChanged`, `loadLevelFromDisk` over histories of mapping calls (`Model/MipMapping`); square roots as any function with the algebra of lengths, rounding of the voxel size to float left out | sample by sample refinement of the placed matrices; linear interpolation commutes with the correction |
| C74 | `makeMinMax` as resampling followed by `makeMIP` (`Model/MinMax`), with the mappings of the results; exact arithmetic | composition of C53, C49, C50 and C73; a voxel of a level as an interval of the unit interval |
| C75 | `MIPFieldIO` and its proxies, lazy loading from a group path (`Model/MipIO`) on the archive of C35/C36 | composition of C37/C38 per level, numbered group names distinct; resolution test against an order on resolutions |
| C76 | MIP fields as objects under any sequence of calls: offset, metadata, mapping, levels (`Model/MipOffset`, `MipField`); readers hand the metadata they made to `readLayer` (`FieldClass`) | invariants by induction over calls, C73 for the placement of levels |
| C77 | fields with `int` and `size_t` arithmetic, overflow given by an arbitrary function (`Model/Machine`) | every operation equals that of the unbounded model below the bounds, then C01, C02, C08, C15; sharpness by the undefined case |
| C78 | sparse field objects with block tables on a heap, the manager's references and cache list (`Model/DynField`), one thread, eviction of any listed block at any moment | refinement to maps of their own (`Spec/DynField`) by an invariant over all fields, tables, references and the cache list; the failures for every permitted history |
| C79 | the HDF5 readers and writers of dense, MAC and sparse fields on a tree of groups, attributes and datasets (`Model/Hdf5`) | each writer adds a known list of attributes and datasets to a group without them; reading finds them; C41 for the passes over blocks |
| C80 | `Field3DOutputFileHDF5` and `Field3DInputFileHDF5` as objects on a tree of HDF5 objects (`Model/Hdf5Files`) | simulation: after any calls the tree is the one given by a list of partitions with their layers; opening it gives these back whatever the order of visits; C79 for the fields |
| C81 | `Field3DInputFile` and `Field3DOutputFile` as objects that are used for files of both formats, one after the other (`Model/FileObject`), over the models of C43/C44 and C80 | induction over the history for what stays in the object, refinement to the object of the one format |
| C82 | `readProxyLayer`, `readProxyScalarLayers`, `readProxyVectorLayers` for both formats and through the file object (`Model/Proxy`), over the models of C43/C44, C70, C75 and C80 | the groups that were written have windows and level counts (entries of C37/C38/C75/C79); names listed (C44/C80) are the keys, one loop per key; permutation by keys |
| C83 | `EmptyField` as an object (`Model/Proxy`) | induction over the calls |
| C84 | the HDF5 readers and writers of mappings on HDF5 objects (`Model/Hdf5Mapping`), put into the files of C80 with the fields of C79 | each writer adds a known list of attributes; C47 for the values, C71 for the comparison, C80 for the file |
| C85 | the HDF5 readers and writers of MIP fields and the load actions (`Model/Hdf5Mip`) in the files of C80, with the mappings of C84 | the writer adds a known group of levels; each level is C79 in a new group; opening the path of a level goes through the group of the layer |
| C86 | type strings, `matchRTTI`, casts and the choices made with them (`Model/Rtti`), with the declared base classes as specification | a cast succeeds iff a class in the line of bases that tests has the string; type strings are injective by the part before the first bracket and the arguments; the writers and lists by uniqueness in the line |
| C87 | group membership of HDF5 files (`Model/Hdf5Groups`) beside the calls of C80, with the members by group as specification | a file with groups is the file without them and one more link of the root: kept by every call, seen by no reader of layers (for every visiting order there is one of the smaller root); texts by tokenizing words |
| C88 | plugin loader, singleton and constructor of the class factory, `initIO` (`Model/Plugins`); a bound on nested calls of `loadPlugins` is part of the model and proved to suffice | closed form of `loadPlugins` with and without a factory, by induction on the nesting and on the files; histories by an invariant |
| C89 | reading sparse layers with limited memory from Ogawa groups (`Model/LazyFile`): the small arrays when a layer is opened, the file opened again for each block | the model follows that of C78 step by step once a file *serves* a field; that is derived from an unlimited read by inverting it; files of the library by C38, C43 and C70 |
| C90 | the overloads that write layers with fewer names, of both file objects (`Model/ShortForms`) | each run is translated to one of calls with both names, dropping the calls that are refused; then C43 and C80 |
| C91 | the loop of `readScalarLayersAs` and `readVectorLayersAs`, with `copyFrom` of C72 and the cast of C86 (`Model/ReadAs`) | C72 for the voxels, the mapping of a copied definition puts points where the original does; for whole files C84 |
| C92 | the whole interface of `OGroup` and `OData`: groups with several parents, data in several places, `replaceData` and `rewrite` (`Model/OgawaGraph`), read by the reader of C30 | a document of groups and data without positions; invariant: the file is the header and one record for every frozen group and all data, every slot holds what the document says; induction over the calls, over the parents when a group is frozen and over the depth when reading; the rest by witnesses |
| C93 | the statistics of the manager of dynamically loaded blocks over the cache and threads of C24 (`Model/CacheStats`) | a history of states; how often a block came into memory is counted from the histories (`Spec/CacheStats`), not from the counters; invariant by induction over the calls, sums over the tables; the rest by witnesses |
| C94 | the members of a field group and the calls that change them (`Model/GroupState`) | refinement to a book with one flat list of fields (`Spec/GroupState`), by induction over the calls; the range by C61 over the joined lists; the rest by witnesses |
| C95 | MIP fields as objects with vectors of pointers into a heap of levels, and the calls of programs (`Model/MipCopy`) | well-formedness and separation of addresses by induction over the calls; what is read is a function of heap and object (`Proofs/MipCopy`), the loop of `init` by induction; the wrong case of assignment by a witness |
| C96 | the interpolators of C18 to C21 (`Model/Interp`) | Lipschitz bounds along one axis, over the cells between two points by induction, then one axis after the other; the jump of the cubic by a field with two crossing rows, for all later points |
| C97 | `Model/Messages`: console and verbosity as state, `bytesToString` with the conversion to `float` and the rounding to three decimals, `/proc/self/stat` as `>>` sees it | induction over the calls; error bounds and monotonicity of both roundings; the texts of the name shift the fields |
| C98 | `Model/Merge`: the requests of `f3dmerge` in order, reading and writing by `Model/Files` | the requests have no repetition and cover the listing (C44), each gives its layers (C43), so that all together are a permutation of the wanted layers; writing succeeds (C43) |
| C99 | `Model/MakeMip`: requests and files as in C98, the classes told apart, the three fields made for each | as C98, with a list of layers for each copy; a null pointer anywhere prevents an output file |
| C100 | `Model/Procedural`: `typedIntMetadata` for the six voxel types over `Model/Metadata`, with the conversions between `int`, `float` and `half` | C45 for the history; error bounds of the roundings |
| C101 | `Model/IterPins`: the counts that const iterators of a field with a manager change, any number of iterators at once | invariant over histories: count = start + iterators in the block; negation for copies |
| C102 | `Model/InterpVec`: the interpolators with vector arithmetic | component of the sample = scalar sample of the component (C18, C21); linear maps by ring; negation for cubic |
| C103 | `Model/FileRefs`: the six tables of references and the dispatch of cached blocks by type | closed form of the tables after registrations; invariant: the list has exactly the blocks in memory, with the types of their references |
| C104 | `Model/MemSize`: `memSize` of the field classes, sizes of C++ objects as parameters | invariant of reachable sparse fields (allocated blocks are those with data); counting of allocated blocks over a write and a release |
| C105 | `Model/Info`: the program `f3dinfo` over `Model/Files` | the requests have no duplicates and cover the listing (C44); reads by C43 as for C98; induction over the files |
| C106 | `Model/SampleApp`: the program `f3dsample` over `Model/Files` | cases for the field; the file by C43 and C44 for its two calls; the fault by evaluation |

## 4. Trusted base

* Lean's kernel; axioms `propext`, `Classical.choice`, `Quot.sound` only (checked with
  `#print axioms` for every theorem in the manifest). No `sorry`, `native_decide`, `bv_decide` or own axioms.
* The faithfulness of the hand-written model to the C++ text (each definition cites its lines).
* The conventions of section 2. In particular threads are sequentially consistent although the code shares ordinary
  variables (MIP lazy loading C64, sparse block flags, `vector<bool>` in the block writer), so the theorems about
  schedules say nothing about torn or reordered accesses.
* Imath's `extractSHRT` and `equalWith…Error`, not in the repository, as documented (C71).
* The operating system, the C++ library, zlib (an injective pair compress/uncompress), boost; HDF5 as described at the head
  of `Model/Hdf5` (creating what exists fails, chunks of no elements and chunks larger than the dataset are refused, values
  come back bit by bit under the type they were written with, any conversion otherwise).

### 4.1 What is modelled

| module (`Verif/Model`) | code |
|---|---|
| Basic, Iterate, Loops | `Box3i`/`V3i` use, `FieldRes` iteration, `advance`, `indexToCoord`, `numGrains`/`getGrainBounds` (export/Field.h) |
| Dense, Sparse, SparseHeap, Mac | storage, addressing, resizing, copying, iterators, block release (export/DenseField.h, SparseField.h, MACField.h) |
| Machine | sizes, indices, counts, block numbers and grains of the fields as `int` and `size_t` (same files, src/DenseFieldIO.cpp:485-509) |
| Interp, Cont, MipInterp | linear, cubic, MAC and sparse interpolators, coordinate conversions, MIP level selection (export/FieldInterp.h, MIPInterp.h, Field.h) |
| Cache | `SparseFileManager`, `SparseFile::Reference`, second-chance eviction, locks (export/SparseFile.h, src/SparseFile.cpp) |
| DynField | sparse fields that load from files as objects: reading, copying, assigning, editing, destroying, with the cache list (export/SparseField.h, SparseFile.h, src/SparseFile.cpp, SparseFieldIO.cpp) |
| Ogawa, Og | Ogawa archives byte by byte with the order of writes; the typed groups, attributes and datasets on top (src/O*.cpp, src/I*.cpp, include/Og*.h) |
| FieldIO, BlockThreads, Hdf5Blocks | dense, sparse and MAC IO for Ogawa with the threaded readers and writers; the chunked HDF5 block reader (src/*FieldIO.cpp) |
| Hdf5 | dense, MAC and sparse fields in HDF5 groups (src/DenseFieldIO.cpp, SparseFieldIO.cpp, MACFieldIO.cpp, include/MACFieldIO.h, export/SparseDataReader.h, Hdf5Util.h) |
| Hdf5Files | partitions, layers and metadata of HDF5 files (src/Field3DFileHDF5.cpp, export/Field3DFileHDF5.h); mappings and fields are parameters |
| FileObject | the file objects of src/Field3DFile.cpp and export/Field3DFile.h with both formats: `open`, `close`, `clear`, `create`, names, metadata, reading and writing of layers |
| Hdf5Mapping | null, matrix and frustum mappings in HDF5 groups (src/FieldMappingIO.cpp, src/Field3DFileHDF5.cpp) |
| Hdf5Mip | MIP fields in HDF5 layers and their load actions, IO classes by name (src/MIPFieldIO.cpp, include/MIPFieldIO.h, export/Field3DFileHDF5.h) |
| Rtti | type strings of all classes, `matchRTTI`, `field_dynamic_cast`, the casts of the writers and of `FieldGroup::setup` (export/RefCount.h, Traits.h, FieldGroup.h, src/*FieldIO.cpp) |
| Hdf5Groups | `addGroupMembership`, `writeGroupMembership`, `readGroupMembership` (src/Field3DFileHDF5.cpp) |
| Plugins | src/PluginLoader.cpp (not the Windows parts), singleton and constructor of `ClassFactory`, `initIO`; registration functions only register classes, one thread |
| LazyFile | sparse layers in Ogawa files with `doLimitMemUse()`: `SparseFieldIO::read`, `readData`, `Reference::openFile`, `loadBlock`, `OgSparseDataReader`, `activateBlock` on the state of DynField (src/SparseFieldIO.cpp, src/SparseFile.cpp, include/OgSparseDataReader.h) |
| ShortForms | the overloads of `writeScalarLayer`, `writeVectorLayer` and `writeLayer` with fewer names (export/Field3DFile.h, export/Field3DFileHDF5.h) |
| ReadAs | `readScalarLayersAs`, `readVectorLayersAs` (export/Field3DFileHDF5.h:485-625) for dense, sparse and MAC fields |
| OgawaGraph | `OGroup` and `OData` with shared groups and data, parts, `replaceData`, `rewrite` and the questions about children (src/OGroup.cpp, src/OData.cpp); the order of single writes is in Ogawa only |
| CacheStats | `totalLoads`, `numLoadedBlocks`, `totalLoadedBlocks`, the ratios and `resetCacheStatistics` (src/SparseFile.cpp:292-443, export/SparseFile.h:779-861); counters are unbounded, ratios exact |
| GroupState | `setOsToWs`, `setWsBoundsOptimization`, `setValueRemapOp`, `setup`, `setupMinMax`, `load`, `makeMinMax`, `size`, `sizeMIP`, `fields`, `hasPrefiltMinMax`, `getMinMax` (export/FieldGroup.h:427-714, 853-1066); a field is its class, voxel type and a name, the reading of layers is a given function, the made fields are given names |
| MipCopy | `MIPField` as an object: constructor, copy, `operator=`, `init`, `clear`, `setup`, `setupLazyLoad`, `loadLevelFromDisk`, `concreteMipLevel`, `mipLevel`, `fastMipValue`, `levelLoaded`, `mipResolution`, `voxelCount` (export/MIPField.h:323-530, 572-712); one thread, without names, metadata and mappings |
| Messages | src/Log.cpp | digits are left out: a number with three decimals is its number of thousandths; `/proc/self/stat` has numbers after the state |
| Merge | apps/f3dmerge/main.cpp | Ogawa files only; command line, console and an output file that is also an input file left out; the layers of a file are read before the first is written |
| MakeMip | apps/f3dmakemip/main.cpp | as Merge; the filtering of a field is a given function (Resample, MinMax and MipMapping model it) |
| Procedural | export/ProceduralField.h:212-327 | the default is finite; conversions to and from `float` are parameters in the float versions; sampling is left out |
| IterPins | export/SparseField.h:898-948, 998-1038; export/SparseFile.h:745-766, 1296-1318 | one thread; the field is not changed while iterators exist |
| InterpVec | export/FieldInterp.h:604-806, 1081-1200, 1556-1655 with `Data_T` a vector | exact arithmetic as in Interp |
| WriteField | src/Field3DFile.cpp:223-241, 1484-1508 | any table of IO classes; without assertions |
| FileRefs | export/SparseFile.h:253-331, 893-1120, 1181-1293, export/Traits.h:108-118, 350-410, src/SparseFile.cpp:97-247, 292-377, 455-487 | sequential; positions in the list of blocks are given (the clock hand is in Cache); no pins, use flags or data |
| MemSize | export/Field.h:279-280, export/EmptyField.h:218-223, export/DenseField.h:500-506, export/SparseField.h:1707-1721, export/MACField.h:637-644, export/MIPField.h:519-545 | sizes of objects are parameters; vectors have any capacity that `resize` may give; no wrap-around of `long long int` |
| Info | apps/f3dinfo/main.cpp:58-108, 188-344 | Ogawa files only; an entry stands for the lines printed for it; regular expressions are a given function; command line left out |
| SampleApp | apps/f3dsample/main.cpp:61-75, 99-106, 198-308 | Ogawa files only; the entries made for a field are given; command line left out |
| AnyLess | export/SparseField.h:768-803 with `CheckMaxAbs`, 810-873 | exact numbers, no NaN |
| Proxy | proxies of layers for both formats (src/Field3DFile.cpp, export/Field3DFileHDF5.h) and `EmptyField` (export/EmptyField.h); the voxel type asked for plays no part |
| MipIO | MIP fields in Ogawa groups: proxies, levels, lazy loading by path (src/MIPFieldIO.cpp, include/MIPFieldIO.h, export/MIPField.h) |
| MappingIO, Metadata, Files, LayerIO | mapping IO (Ogawa and HDF5 group level), metadata maps and IO, partitions and layers of files (src/FieldMappingIO.cpp, FieldMetadata.cpp, Field3DFile.cpp) |
| Registry | class factory, `FieldCache`, `RefBase`/`WeakPtr` counts with interleavings (src/ClassFactory.cpp, export/FieldCache.h, RefCount.h) |
| CopyFrom | copying, matching and comparing fields (export/Field.h) |
| Curve, Xform, Mapping, Identical, CoordSys | animation curves, matrix and frustum mappings and their comparison, fitting of coordinate systems (export/Curve.h, src/FieldMapping.cpp, export/CoordSys.h) |
| MacUtil, Sampler, FieldGroup | MAC conversions, `FieldSampler`, wrappers, groups, ray intersections (export/MACFieldUtil.h, FieldSampler.h, FieldWrapper.h, FieldGroup.h) |
| Resample, MinMax, MipThreads, MipLoad, MipMapping, MipOffset, MipField | separable filtering, MIP construction, its threads, lazy loading, the mappings of levels, MIP fields as objects (export/Resample.h, MinMaxUtil.h, MIPUtil.h, MIPField.h, src/MIPUtil.cpp) |
| PatternMatch, FileSequence | src/PatternMatch.cpp, src/FileSequence.cpp |

### 4.2 What is not modelled

* Floating point rounding (except where a property names it: C03, C17, C49 show that the code's float arithmetic fails
  beyond 2^24), `half` conversion (except the witness in C61), 32-bit overflow of voxel coordinates outside C77.
* The inside of the HDF5 library; the file handle that an HDF5 load action leaves open when
  loading throws.
* `ProceduralField` except for its parameters, the applications in apps/ other than `f3dmerge`, `f3dmakemip`, `f3dinfo` and `f3dsample`; what a plugin does besides registering classes.
* Template instantiation: voxel types are a type parameter, and the 12 or so instantiated copies of code are one.
* Memory exhaustion (`bad_alloc`), except as stated in C65.

## 5. Disagreements found between the code and what a user would rely on

Each is proved of the model (theorem in parentheses).

**Storage and iteration**
* `memSize` of dense and empty fields counts the base class twice; that of sparse fields counts it once
  (`C104_base_twice`), and is undefined from block order 11 on (`C104_sparse_order_limit`). A MAC field that is made smaller
  keeps its memory (`C104_mac_witness`).
* Block addressing of fields wider than 2^24 voxels uses `float` and leaves the table (`C03_wide_field_out_of_table`).
* `releaseBlocks` with a threshold replaces a block whose values have small magnitude by one value, which may have the
  other sign (`C05_release_can_flip_sign`).
* Assignment of fields shares the mapping object: changing it through one field changes the other
  (`C07_assignment_shares_mapping`).
* A MAC field that is resized keeps old face values (`C08_mac_resize_keeps_stale_faces`), and writes through its `lvalue`
  are lost (`C08_mac_value_is_face_average`; `lvalue` returns a dummy).
* An iteration over a window that is empty in one axis only never ends (`C10_partly_empty_window_never_ends`).
* The const iterator of a dynamically loaded sparse field ignores the origin of the data window
  (`C12_dynamic_iterator_misaligned`); copying such an iterator unbalances the pin count (`C101_copy_unpins`).
* The bounding box of a block iterator ignores the origin (`C14_bounding_box_ignores_origin`); the windows for which the boxes are
  right are `C14_bounding_boxes_right_iff`, and voxels with negative coordinates are in no box (`C14_negative_voxels_in_no_box`).
* `discreteBounds` truncates towards zero and so misses negative voxels (`C17_discreteBounds_misses_negative`), and
  `discreteBounds(continuousBounds(b))` is one voxel larger than `b` (`C17_continuousBounds_inexact`).
* `voxelCount` and `numGrains` of an empty field are 1 (`C15_empty_counts`).

**Interpolation**
* Cubic interpolation overshoots (`C21_cubic_overshoots`) and clamps at 0.5 instead of the window's minimum
  (`C21_cubic_wrong_below_zero`, `C21_cubic_wrong_above_zero`). It is not continuous: slopes are set to zero where two values
  are equal, and in the second and third pass the values are interpolated ones (`C96_cubic_jumps`). Cubic samples of vectors
  depend on the coordinates in which the vectors are stored (`C102_cubic_not_linear`).

**Block cache**
* `flushCache` ignores pins (`C27_flush_breaks_reader`). Eviction never returns if every cached block is pinned
  (`C28_all_pinned_never_stops`), and such a state is reached (`C28_stuck_state_reachable`); three threads can deadlock
  (`C66_deadlock`). With many readers the limit is exceeded by what they are loading (`C25_many_readers_bound_tight`).

**Ogawa**
* Zero-length data takes two slots of a group (`C33_zero_length_takes_two`), which shifts later indices and elements
  (`C33_zero_length_shifts_index`, `C36_empty_element_shifts`).
* A read with position near 2^64 passes the bounds test (`C32_wrapping_read_escapes`). A torn header is read out of bounds
  (`C31_torn_header_out_of_bounds`). Light reading cannot tell kinds of children (`C34_light_kind_queries_fail`).
* Entries with an empty name hide those after them (`C35_empty_name_hides`, `C35_listed_but_not_found`); names with '/'
  are listed but not found (`C35_slash_in_name`). Strings end at the first NUL (C36). The value of an absent attribute is
  undefined (`C36_value_of_absent_crashes`).

**Field files**
* A dense field that was never sized cannot be read back (`C37_unsized_field_unreadable`).
* The threaded block writer has a race: blocks are exchanged (`C40_race_swaps_blocks`, `C38_race_exchanges_voxels`), lost
  so that the writer waits for ever (`C40_race_loses_a_block`), or flags are read past their end
  (`C40_race_reads_past_the_end`).
* MAC fields written to Ogawa files have no data (`C42_mac_lost`).
* Readers copy stored elements without comparing sizes (`C67_dense_overrun`).
* With limited memory the loader assumes compressed blocks: an uncompressed layer opens and throws at the first voxel
  (`C89_uncompressed_throws`). Blocks that are flagged but not counted are zero without and fail with limited memory
  (`C89_wrong_count`). A block that does not uncompress is zero without a limit and the block's empty value with it
  (`C89_damaged_blocks`).
* Reading with a memory limit below one block reads nothing (`C41_zero_limit_reads_nothing`).
* A layer named "mapping" is lost (`C43_layer_named_mapping`). A '/' in a layer name throws after the partition was made
  (`C43_slash_in_layer_name`). A mapping class without IO leaves a partition without mapping and the next write crashes
  (`C43_unwritable_mapping_crash`). Layers are read in the order of partitions, not of writing (`C43_order_of_partitions`).
  `writeLayer` ignores the result of `writeField`: a field whose class has no IO class is reported as written, its layer has
  no class name and reading it dereferences null (`C43_class_without_io`, `C43_class_without_io_witness`).
* An output object used for a second file keeps its counters, so layer names vanish from listings
  (`C44_second_file_loses_layers`, `C44_reuse_witness`).
* Metadata of different types under one name: only the first type is kept in the file (`C46_shared_name_lost`).
* A frustum mapping written to Ogawa comes back with default matrices (`C47_frustum_ogawa_forgets`,
  `C47_frustum_ogawa_witness`) since the number of samples read is not stored.
* The field cache keys of names with '/' collide (`C48_slash_collides`), it returns the old field for a file that was
  overwritten (`C48_stale`), and may return a field that is being deleted (`C48_dying_field_returned`).

**MIP**
* Building with an offset can lose voxels or be rejected (`C49_offset_loses_voxels`, `C49_offset_rejected`); a base whose
  window does not start at 0 is read out of bounds (`C49_origin_undefined`); sizes are wrong beyond 2^24
  (`C49_large_resolution`).
* Min/max filters write nothing where all values equal ±FLT_MAX (`C50_min_lost`).
* With blocks of less than 16 voxels the threads share target blocks and race (`C51_sparse_blocks_shared`,
  `C51_sparse_race`); zero threads give no levels (`C51_no_threads`).
* Skipping of empty input drops values for wide filters and small blocks (`C52_mitchell_dropped`,
  `C52_gaussian_dropped`). Resampling refuses fields one voxel thick (`C53_refused`).
* The raw pointer of a lazily loaded level is published before its mapping and metadata are set (`C64_early`).

**Mappings, sampling, the rest**
* A matrix interpolated between invertible samples can be singular (`C54_between_samples_collapses`); frustum time
  samples survive `setTransforms` (`C54_frustum_stale_sample`); misaligned cameras (`C54_frustum_misaligned`); bounds of
  boxes that straddle the camera plane (`C55_frustum_straddling`); voxel size of a single slice (`C68_single_slice`);
  rays parallel to or reversed in frusta (`C69_frustum_parallel`, `C69_frustum_reversed`, `C69_frustum_mirrored`),
  nearly zero ray directions (`C69_tiny_direction`).
* The comparison of mappings ignores shear (`C71_shear_ignored`), so a file keeps one mapping for two fields that differ by
  it (`C71_shear_lost_in_files`); with a tolerance it is neither symmetric nor transitive
  (`C71_tolerance_not_symmetric_nor_transitive`).
* `copyFrom` resizes the target first, so a field copied to itself loses its voxels (`C72_self_copy_loses_data`). Into a
  MAC field it copies nothing, as `lvalue` gives a dummy (`C72_copy_to_mac_copies_nothing`). Into a sparse field it
  allocates every block (`C72_copy_to_sparse`).
* A field with a NaN is not identical to itself (`C72_nan_not_identical`).
* The mappings of MIP levels use the voxel size at time zero for every sample (`C73_growing_misplaced`), treat a matrix
  mapping without samples as filling the unit cube (`C73_unset_misplaced`), and stretch frusta by the ratio of the
  resolutions without regard to the offset (`C73_frustum`, `C73_frustum_misplaced`).
* Resampling a field whose data window is smaller than its extents stretches it (`C53_window_stretched`). `makeMinMax`
  ignores that `resample` refused and gives empty fields (`C74_refused`); if the resolution is not divided evenly, the
  field is not bounded by its min and max fields (`C74_below_min`).
* `MIPFieldIO::write` reports success without looking at what its levels reported; a field without levels or with levels
  that do not shrink is written and cannot be read (`C75_levels_checked`).
* `setMIPOffset` after the levels were set up leaves them where they were, while sampling uses the new offset
  (`C76_stale`); metadata edited or copied by hand moves levels that are loaded later but not the reported offset
  (`C76_metadata_edit`). `setup` drops the old levels before it checks the new ones (`C76_refused`), and setting a mapping on
  a field without levels is undefined (`C76_refused_then_mapped`). A new MIP field has one level that cannot
  be used (`C76_new_level_unusable`).
* Machine integers: the number of elements written for a dense field and `voxelCount` are `int` products, so a dense field of
  2^32 voxels is written without data and one of 2^31 past its buffer (`C77_dense_counts`, `C77_dense_file_wraps`); a window of
  2^64 voxels is accepted and gets no elements (`C77_dense_wraps`); too many voxels for a vector is `std::length_error`, not
  the documented exception (`C77_dense_elements`). MAC fields and sparse block tables stop at 2^31 faces and blocks
  (`C77_mac_limit`, `C77_sparse_limit`), block orders at 10 (`C77_block_order`). Sizing to Imath's empty box overflows before the
  check; where it wraps, a MAC field accepts it (`C77_sides`). Grains of windows at the largest `int` overflow
  (`C77_dense_grains`, `C77_sparse_grain_overflow`), as does the end iterator (`C77_end_position`).
* Sparse fields loaded from files on demand: clearing, resizing, changing the block order of or assigning to one that was read
  from deletes its block table but leaves its blocks on the cache list, so a later flush or eviction writes to freed memory
  (`C78_reset_after_read_dangles`, `C78_assign_after_read_dangles`; the old reference is not removed). `releaseBlocks` reads
  through null pointers where blocks are not loaded (`C78_release_unloaded_undefined`). `setBlockEmptyValue` followed by a copy
  renumbers the blocks, so the copy reads other blocks' data (`C78_edited_copy_reads_wrong_block`).
* HDF5: with compression, a dense field of a single value is not written, though its layer appears in the file; reading it
  throws (`C79_dense_single_value_not_written`). The number of values is rounded down to whole vectors before it is checked,
  and the sizes of MAC components are not checked, so inconsistent files overrun the field
  (`C79_dense_extra_values_overrun`, `C79_mac_extra_values_overrun`). A field with a block that is not in memory cannot be
  written (`C79_block_not_in_memory_crashes`).
* HDF5 files (C80). A vector layer cannot be written under the names of a scalar layer with an identical mapping
  (`C80_mixed_kinds_fail`), nor a layer named "mapping" (`C80_layer_named_mapping_fails`), nor metadata that use one name for
  two kinds (`C80_metadata_two_kinds_fail`). When a mapping cannot be written, a partition without mapping is left: later
  writes under its name follow a null pointer and the whole file cannot be opened (`C80_failed_mapping_spoils_file`). A layer
  name that begins with a slash is reported as written and makes the whole file unreadable
  (`C80_absolute_layer_name_spoils_file`). A field that could not be written stays listed and makes its names unreadable
  (`C80_failed_field_spoils_reading`). Objects of the HDF5 classes themselves cannot be used for a second file
  (`C80_second_file_fails`, `C80_reopen_fails`); the wrapper makes a new one for each file.
* File objects (C81). Metadata of an earlier Ogawa file stay in the object (`C81_metadata_stays`). Once a file that is not an
  Ogawa file was opened, or opening it was tried, Ogawa files are opened with result true but nothing is listed or read
  (`C81_no_ogawa_after_hdf5`, `C81_open_still_true`): `m_hdf5` is never reset. `readLayers` finds nothing in HDF5 files
  (`C81_typed_read_of_hdf5_is_empty`). Once an HDF5 file was created, creating an Ogawa file returns true but nothing can be
  written to it with the functions for scalar and vector layers (`C81_no_ogawa_written_after_hdf5`). `writeLayer` is refused
  for an HDF5 file (`C81_typed_write_refused`) or goes to the Ogawa file made before
  (`C81_typed_write_goes_to_earlier_file`).
* Proxies (C82, C83). A MAC field in an Ogawa file makes `readProxyLayer` throw for its names, and the lists of all proxies
  or of those of its layer name throw whatever else the file has (`C82_layer_without_windows`). The second file of a writing
  object may have no proxies in the lists (`C82_second_file_has_no_proxies`). For Ogawa files the lists of scalar and of vector
  proxies are both those of all layers (`C82_all_proxies` holds for either). Integer metadata "mip_levels" of the field are
  replaced. The voxels of a proxy are not initialised (`C83_proxy_has_no_values`), and `setConstantvalue` and writes to voxels
  have no effect on them (`C83_values_are_not_kept`).
* HDF5 mappings (C84). If the number of samples is missing from a mapping's group, the mapping is read without samples, that
  is, with no transform or as the default frustum, and no error (`C84_incomplete_matrix`, `C84_incomplete_frustum`); the
  reader of Ogawa files refuses such a group. A frustum with samples but none at time zero cannot be written
  (`C84_frustum_write_defined`), as for Ogawa.
* HDF5 MIP fields (C85). With compression a dense level of a single value is not stored although writing the field returns
  true; loading the level throws (`C85_single_value_level_lost`).
* Casts (C86). A cast to `FieldBase` gives null for every object (`C86_fieldBase_never`). The type strings of `EmptyField` leave
  out the voxel type and those of the generic interpolators the field class, so that casts between different classes succeed
  (`C86_emptyField_confused`, `C86_generic_interp_confused`); so do those from a `MIPField` to `MIPDenseField` or `MIPSparseField`
  (`C86_mip_helpers_confused`) and between the two classes `Partition` (`C86_partition_confused`). `FieldGroup::setup` leaves out
  MAC, procedural and empty fields without a message (`C86_group_ignores`).
* Groups of layers (C87). Texts that are added by several calls are put together without a separator; "a:x" and "b:y" make
  `readGroupMembership` dereference the end of its tokens (`C87_texts_run_together`). `create` does not forget the groups of the
  file before (`C87_create_keeps_groups`). A dot in the name of a partition is taken for the start of its number, though the number
  may not be there (`C87_dots_lost`). In Ogawa files `writeGroupMembership` returns true and stores nothing, its code being
  switched off; `Field3DInputFile` cannot read groups at all, only `Field3DInputFileHDF5` can.
* Plugins (C88). The constructor of the class factory loads the plugins before `ms_instance` is set, so that `singleton()` inside
  `loadPlugins` makes another factory for each plugin; each replaces, and deletes, the one made inside it. The classes of all
  plugins are lost (`C88_classes_lost`, `C88_only_the_library`); with `loadPlugins` as the first call, of all but the first plugin
  (`C88_first_plugin_only`). A program can get round this by asking for the factory before the search path is set
  (`C88_loaded_later`). The name of a plugin is noted before it is opened: a broken file hides a good one (`C88_hidden`).
* Names of layers (C90). `writeScalarLayer(layerName, field)` and the same for vectors swap partition and layer in HDF5 files: the
  layer is called "default" and its partition `layerName` (`C90_named_layer_swapped`). Without names, Ogawa files accept fields
  whose name is empty, and these cannot be read by their names (`C90_no_name`).
* Layers that are converted when they are read (C91). `readVectorLayersAs<MACField>` gives fields that are zero everywhere,
  because `copyFrom` of MAC fields copies no voxels (`C91_as_mac_loses_voxels`). One layer with an empty data window makes
  `readScalarLayersAs<DenseField>` throw for all of them (`C91_layer_without_voxels`). Conversion to sparse fields allocates every
  block (`C91_as_sparse_is_full`).
* Shared and changed parts of Ogawa archives (C92). `OData::rewrite` compares offset plus size, which wraps around 64 bits, so an
  offset of 2⁶⁴ − 8 overwrites the length in front of the data (`C92_rewrite_wraps`). `createData` with no bytes adds an empty child
  to the group (`C92_created_without_bytes`), so `addData` with no bytes adds two. `isChildEmptyGroup` is true for a group that is not
  frozen yet, whatever is in it (`C92_questions`).
* Statistics of the block cache (C93). Blocks in memory count as loaded after a reset, so the efficiency, blocks loaded per load,
  exceeds 1 (`C93_efficiency_after_reset`). Destroying a field takes its loads out of the total (`C93_destroying_forgets_loads`).
* Field groups over a history of calls (C94). `fields` gives only what the last `setup` or `load` was given, also fields that the group
  has no list for, so it agrees with `size` in neither direction (`C94_fields_not_members`). Once minima and maxima were given or
  made, `getMinMax` leaves out fields that are added without them (`C94_range_not_updated`, `C94_range_stale`).
  `setWsBoundsOptimization(false)` does not reach the fields that are there (`C94_bounds_stay`).
* MIP fields as objects (C95). Assigning a MIP field whose level is not in memory to one whose level is keeps the old level: `init`
  (export/MIPField.h:367-379) copies only levels in memory and does not reset the others (`C95_assign_keeps_old_level`). A MIP
  field that was never set up has one entry in `m_fields` and none in `m_rawFields`, so copying it writes out of bounds and reading
  it reads out of bounds, although `numLevels` gives 1 (`C95_undefined_before_setup`).
* `bytesToString` negates the least number, which is undefined (`C97_least_undefined`), and shows 1024.000 MB for numbers below a
  gigabyte (`C97_thousand_and_twenty_four`). `currentRSS` takes the virtual memory in bytes for a number of pages if the name of the
  process has a space (`C97_rss_wrong`).
* `f3dmerge` loses the metadata of the files (`C98_merged_listing`).
* `f3dsample` does not look at the result of `create`: a file that cannot be made gives undefined behaviour
  (`C106_not_created`). Its option for the kind of filling changes nothing, and other bits than 64 and 32 give 16 (`C106_field`).
* `f3dmakemip` says that it skips layers with _min or _max in their names, but does not (`C99_listing`); for a field with padding,
  a data window that differs from the extents, it uses a null pointer (`C99_padded_crashes`, `C99_null_iff`).
* Float parameters of procedural fields of doubles: the default is rounded to `float` (`C100_float_default`).
* Integer parameters of procedural fields: the default loses its fraction (`C100_default_fraction_lost`), large parameters of
  fields of halves are infinite or rounded (`C100_half_range`), and a default out of range is undefined even if it is not used
  (`C100_parameter`).
* File sequences: a dash in the name is taken for a sign (`C57_dash_in_name`).
* Reference counts: the test for zero is separate from the decrement, so objects are deleted twice
  (`C60_race_deletes_repeatedly`, `C60_race_reads_deleted`).
* `getMinMax` of samplers stops early, misses fields, does not bound interpolated samples, and misses negative voxels
  (`C61_minmax_stops`, `C61_minmax_misses_fields`, `C61_minmax_not_interpolated`, `C61_minmax_negative`); the optimisation
  flag of MIP wrappers is not initialised (`C61_mip_uninitialised_flag`).
* MAC conversion rotates by the negated Euler angles (`C62_two_axes`). Fitting of coordinate systems truncates negative
  bounds and is off by one (`C63_negative_missed`, `C63_voxels_too_small`).
