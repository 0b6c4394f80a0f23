import json
P=[]
def p(title, statement, quantifier, why, anchors):
    P.append(dict(id="C%02d"%(len(P)+1), title=title, statement=statement, quantifier=quantifier, why_tests_cant=why, anchors=anchors))

# ---------------- voxel storage
p("Dense fields are a faithful voxel map",
  "A DenseField of any size behaves like a map from the voxels of its data window to values: after any sequence of voxel writes and clears, value(i,j,k) is the last value written to that voxel, or the last clear value if no write came later. No write to one voxel changes another, and no access to a voxel of the data window leaves the field's buffer.",
  "every data window that is non-empty in each dimension (any origin), every finite history of clear/lvalue writes inside the window, every voxel",
  "windows, origins and write histories are unbounded; aliasing between two particular voxels shows only for specific size/origin pairs",
  ["export/DenseField.h:DenseField::fastValue","export/DenseField.h:DenseField::fastLValue","export/DenseField.h:DenseField::clear","export/DenseField.h:DenseField::sizeChanged"])
p("Sparse fields are a faithful voxel map",
  "A SparseField of any size and block order behaves like a map from voxels to values under any history of voxel writes, clears, changes of the empty value of unallocated blocks and releases of uniform blocks: value(i,j,k) always equals the value of the abstract map, whether the block of the voxel is allocated or not.",
  "every non-empty data window, every block order, every finite history of clear/write/setBlockEmptyValue/releaseBlocks operations, every voxel",
  "block-boundary and allocation-state combinations grow with the history; an aliasing or lost-write bug needs a specific combination",
  ["export/SparseField.h:SparseField::fastValue","export/SparseField.h:SparseField::fastLValue","export/SparseField.h:SparseField::clear","export/SparseField.h:SparseField::setBlockEmptyValue","export/SparseField.h:SparseField::releaseBlocks"])
p("Sparse block addressing never leaves the block table or the block",
  "For every voxel of the data window, the block coordinate, block id and in-block offset computed by a SparseField are inside the block table and inside the block, two different voxels never share the same (block, offset) pair, and the block table has exactly the number of blocks needed to cover the window.",
  "every non-empty data window, every block order, every pair of voxels",
  "off-by-one errors in the block count only show for sizes not multiple of the block size, or for particular origins",
  ["export/SparseField.h:SparseField::blockId","export/SparseField.h:SparseField::getBlockCoord","export/SparseField.h:SparseField::getVoxelInBlock","export/SparseField.h:SparseField::setupBlocks"])
p("Releasing blocks never changes a voxel value",
  "releaseBlocks with the all-equal check frees only blocks whose voxels inside the data window all hold one value, keeps value(i,j,k) the same for every voxel, returns the number of blocks it freed, and never allocates.",
  "every field state reachable by writes, every voxel of the window, including partial blocks on the upper edges",
  "the edge blocks have voxels outside the window whose content must be ignored; only specific sizes/fill patterns expose a mistake",
  ["export/SparseField.h:SparseField::releaseBlocks","export/SparseField.h:SparseField::deallocBlock","export/SparseField.h:Sparse::CheckAllEqual"])
p("Releasing blocks by threshold touches only blocks above it",
  "releaseBlocks with the max-abs check frees exactly the allocated blocks in which no voxel inside the data window has magnitude below the threshold; every voxel of a freed block afterwards reads as the value the block's first voxel had, and no other voxel changes. So a voxel that changes has magnitude at or above the threshold before and after, but its sign can flip.",
  "every field content, every threshold >= 0, every voxel",
  "depends on all values in a block at once, for all thresholds",
  ["export/SparseField.h:Sparse::CheckMaxAbs","export/SparseField.h:SparseField::releaseBlocks"])
p("Sparse allocation is exactly write-driven",
  "Reading a SparseField never allocates. A write allocates the block containing the voxel and no other; the voxels of a freshly allocated block other than the written one keep the block's empty value. A clear leaves no allocated block.",
  "every field state, every voxel read or written, every other block",
  "quantifies over all other blocks and voxels for every write",
  ["export/SparseField.h:SparseField::fastLValue","export/SparseField.h:SparseBlock::resize","export/SparseField.h:SparseField::clear","export/SparseField.h:SparseField::voxelIsInAllocatedBlock","export/SparseField.h:SparseField::voxelCount"])
p("Copies of a field are equal and independent",
  "Copy construction, clone and assignment of a sparse field give a field with the same value at every voxel, the same windows and the same allocation state, and no later voxel write to either one is seen through the other. After assignment (but not after copy construction) the two fields share one mapping object, so resizing one changes the mapping extents of the other.",
  "every source field state, every later history of writes to either field",
  "independence ranges over all later histories of both objects",
  ["export/SparseField.h:SparseField::operator=","export/SparseField.h:SparseField::SparseField(const SparseField&)","export/SparseField.h:SparseBlock::copy"])
p("MAC fields keep their three face grids separate and in range",
  "A MACField behaves as three independent voxel maps, one per face direction, each one voxel larger than the data window along its own axis. A write to a u, v or w face is read back exactly, changes no other face of any direction, and value(i,j,k) is the average of the two faces on each side of the voxel in each direction.",
  "every non-empty data window, every finite history of u/v/w writes and clears, every face",
  "strides differ between the three grids; a wrong stride aliases only for particular non-cubic sizes",
  ["export/MACField.h:MACField::u","export/MACField.h:MACField::v","export/MACField.h:MACField::w","export/MACField.h:MACField::value","export/MACField.h:MACField::sizeChanged"])
p("Resizing gives exactly the requested windows",
  "setSize with a size, with extents, with extents and data window, or with a size and padding sets the extents and data window to what is documented; a dense field throws exactly when the requested data window is empty along some axis, and otherwise every voxel reads as the default value; a sparse field never throws, and after a resize to a non-empty window every voxel reads as zero and no block is allocated, whatever the field held before.",
  "every size, extents, window and padding",
  "windows are arbitrary integer boxes",
  ["export/Field.h:ResizableField::setSize","export/DenseField.h:DenseField::sizeChanged","export/SparseField.h:SparseField::sizeChanged"])
# ---------------- iteration
p("Voxel iteration visits each voxel exactly once",
  "Iterating a field from begin to end over any sub-box that is non-empty along every axis visits every voxel of the box exactly once, in x-fastest then y then z order, and terminates after exactly as many steps as the box has voxels. If the box is empty along some axes only, the generic iterators do not produce the empty sequence.",
  "every box non-empty along each axis (any origin), every step of the traversal",
  "boxes are unbounded; termination and exactly-once are properties of the whole traversal",
  ["export/Field.h:Field::const_iterator::operator++","export/Field.h:Field::cbegin","export/Field.h:Field::cend","export/Field.h:WritableField::iterator"])
p("Dense iterators point at the voxel they report",
  "At every step of a DenseField traversal over any sub-box of the data window, the value the iterator dereferences is the value of the voxel whose coordinates it reports, so a traversal sees the same values as value(i,j,k).",
  "every data window, every non-empty sub-box of it, every step",
  "the pointer jumps at row and slice ends depend on both the window and the sub-box",
  ["export/DenseField.h:DenseField::const_iterator","export/DenseField.h:DenseField::cbegin"])
p("Sparse iterators point at the voxel they report",
  "At every step of a SparseField traversal over any non-empty sub-box of the data window of an in-memory field, the value the iterator dereferences is the value of the voxel whose coordinates it reports. For a file-backed (dynamic-load) field this holds when the data window starts at a multiple of the block size, and fails for some other windows.",
  "every data window, block order, allocation state and non-empty sub-box, every step",
  "the cached block pointer must be refreshed at exactly the right steps; depends on alignment of window, sub-box and blocks",
  ["export/SparseField.h:SparseField::const_iterator","export/SparseField.h:SparseField::cbegin"])
p("MAC component iterators visit each face exactly once",
  "Iterating one component of a MACField visits each face of that component exactly once, in order, and dereferences the face whose coordinates it reports.",
  "every non-empty data window, every component",
  "whole-traversal property with per-component extents",
  ["export/MACField.h:MACField::const_mac_comp_iterator","export/MACField.h:MACField::cbegin_comp"])
p("Block iteration visits each block exactly once",
  "Iterating the blocks of a SparseField visits every block of the block table exactly once and terminates. The bounding box reported for a block contains exactly the voxels stored in that block when the data window starts at the origin; for other data windows the reported box is wrong.",
  "every data window and block order, every block",
  "whole-traversal property over unbounded sizes",
  ["export/SparseField.h:SparseField::block_iterator"])
p("Grains partition the data window",
  "For dense and sparse fields, the boxes reported by getGrainBounds for indices 0..numGrains-1 cover every voxel of the data window exactly once and contain no voxel outside it, so processing all grains touches every voxel exactly once.",
  "every data window non-empty along each axis, every block order, every voxel",
  "edge grains must be clipped; only some sizes have partial grains",
  ["export/DenseField.h:DenseField::getGrainBounds","export/SparseField.h:SparseField::getGrainBounds","export/SparseField.h:SparseField::numGrains"])
p("Linear index to coordinate conversion is a bijection",
  "indexToCoord maps 0..n-1 one-to-one onto the voxels of a grid of n = rx*ry*rz voxels in x-fastest order; stepping a coordinate with advance follows the same order.",
  "every resolution with positive components, every index",
  "unbounded index range",
  ["export/Field.h:indexToCoord","export/Field.h:advance"])
p("Discrete and continuous voxel coordinates agree",
  "contToDisc(discToCont(i)) = i for every voxel, contToDisc sends every point of a voxel's cell to that voxel also for negative coordinates, and every point of a continuous box lies in a voxel of its discrete bounds if the lower corner of the box has no negative fractional coordinate (with such a corner, voxels are missed); the continuous bounds of a voxel box are exactly the union of its cells for coordinates up to 2^24, and the discrete bounds of the continuous bounds of a voxel box is that box extended by one voxel on the upper side of each axis; clipBounds of two boxes contains exactly the voxels in both.",
  "every integer coordinate, every real coordinate, every pair of boxes",
  "continuous domain, negative coordinates",
  ["export/Field.h:contToDisc","export/Field.h:discToCont","export/Field.h:discreteBounds","export/Field.h:continuousBounds","export/Field.h:clipBounds"])
# ---------------- interpolation
p("Linear interpolation is a clamped convex combination",
  "Sampling a field with the linear interpolator at any point never reads a voxel outside the data window, returns the voxel's own value at every voxel center, always lies between the smallest and largest of the voxels it reads, and reproduces any affine function exactly at points at least half a voxel inside the window.",
  "every non-empty data window, every real sample point, every field content (exact arithmetic)",
  "continuous sample domain and arbitrary contents",
  ["export/FieldInterp.h:LinearFieldInterp::sample","export/FieldInterp.h:LinearGenericFieldInterp::sample"])
p("The sparse interpolation fast path equals the generic one",
  "Sampling a SparseField with its specialised linear interpolator gives exactly the same value as the generic linear interpolator at every point, whether the eight voxels lie inside one allocated block, inside one unallocated block or across blocks.",
  "every data window, block order, allocation state, contents and sample point",
  "the fast path is taken only for particular alignments; equality must hold for all of them",
  ["export/SparseField.h:LinearSparseFieldInterp::sample","export/FieldInterp.h:LinearFieldInterp::sample"])
p("MAC interpolation is exact on faces and in range",
  "Sampling a MACField with the linear MAC interpolator never reads a face outside the field, returns the stored face value at each face center, and each component lies between the smallest and largest face values it reads; sampling one component gives the same number as that component of the vector sample.",
  "every non-empty data window, every sample point, every content (exact arithmetic)",
  "continuous domain, three staggered grids",
  ["export/FieldInterp.h:LinearMACFieldInterp::sample"])
p("Cubic interpolation is exact at voxel centers but not monotone",
  "Sampling with the cubic interpolator reads only voxels of the data window and returns the voxel's own value at each voxel center when the data window starts at zero or above, and returns a constant for a constant field. It is not a bounded interpolant: there are samples outside the range of all voxels read; and for windows starting below zero it does not return voxel values at their centers.",
  "every data window, every sample point, every content (exact arithmetic)",
  "continuous domain; overshoot depends on the values",
  ["export/FieldInterp.h:CubicFieldInterp::sample","export/FieldInterp.h:monotonicCubicInterpolant"])
p("MIP level selection brackets the requested size",
  "For any ascending list of level voxel sizes and any spot size, the MIP linear interpolator picks level 0 at or below the finest size, the coarsest level above the coarsest size, and otherwise two adjacent levels whose sizes bracket the spot size with a weight in [0,1]; the blended sample lies between the two level samples and is continuous across level sizes.",
  "every number of levels, every spot size",
  "continuous spot size and unbounded number of levels",
  ["export/MIPInterp.h:MIPLinearInterp::interpInfo","export/MIPInterp.h:MIPLinearInterp::sample"])
p("MIP coordinates line up across levels",
  "The coordinate used for MIP level l is the identity for level 0; for any offset and level, level-0 voxel cells map inside the coarse cell that contains them (the coarse voxel with absolute index floor(abs/2^l)), and stepping through levels one at a time gives the same coordinate.",
  "every integer offset (also negative), every level, every point",
  "unbounded levels and offsets, negative shifts",
  ["export/MIPField.h:MIPField::getVsMIPCoord"])
# ---------------- cache
p("Cached reads return the file's data for any history",
  "With a dynamically loaded sparse field, every voxel read returns the value stored in the file, for any memory limit, any sequence of reads of any blocks of any number of fields, evictions, explicit cache flushes between reads and limit changes.",
  "every file content, every history of read/flush/limit operations, every memory limit that allows progress",
  "the result depends on the cache state left by the entire history",
  ["export/SparseFile.h:SparseFileManager::activateBlock","src/SparseFile.cpp:SparseFileManager::deallocateBlocks","export/SparseField.h:SparseField::fastValue","src/SparseFile.cpp:SparseFileManager::flushCache"])
p("The cache stays within its memory limit",
  "With memory limiting on and one thread reading, the memory accounted for loaded blocks never exceeds the limit, or the size of the one block being used when that alone is larger than the limit; the accounted amount always equals the total size of the blocks actually loaded.",
  "every history of block activations over blocks of any sizes, every limit",
  "history-dependent accounting",
  ["src/SparseFile.cpp:SparseFileManager::deallocateBlocks","export/SparseFile.h:SparseFileManager::activateBlock","src/SparseFile.cpp:SparseFileManager::deallocateBlock"])
p("The cache list and the loaded flags agree",
  "At every moment the list of cached blocks has no duplicates and contains exactly the blocks that are marked loaded and hold data, for any history of loads, evictions, flushes and field removals.",
  "every history of cache operations",
  "inductive invariant over unbounded histories",
  ["src/SparseFile.cpp:SparseFileManager::addBlockToCache","src/SparseFile.cpp:SparseFileManager::flushCache","export/SparseFile.h:SparseFileManager::removeFieldFromCache"])
p("Pinned blocks survive eviction",
  "A block whose reference count is raised is not unloaded by eviction, whatever other threads load; so a reader that pins, activates, reads and unpins always reads loaded data of its block. An explicit flush does not honour pins: a flush between a reader's activation and its read leaves it with an unloaded block.",
  "every number of threads, every interleaving of their steps, every memory limit",
  "ranges over all schedules",
  ["src/SparseFile.cpp:SparseFileManager::deallocateBlock","export/SparseFile.h:SparseFileManager::activateBlock","export/SparseFile.h:SparseFileManager::incBlockRef","src/SparseFile.cpp:SparseFileManager::flushCache"])
p("Eviction terminates when something is evictable",
  "The eviction loop terminates for every cache state in which no block is pinned (after at most two sweeps), leaving either enough free memory or an empty cache. If every cached block is pinned and memory is short, the loop never terminates.",
  "every cache state, every requested size",
  "termination for all states; nontermination cannot be observed by a finite test",
  ["src/SparseFile.cpp:SparseFileManager::deallocateBlocks"])
p("Eviction gives recently used blocks a second chance",
  "A block used since the eviction hand last passed it is not evicted while the hand first passes it: during one eviction call an unused, unpinned block ahead of it on the hand's path is evicted first, and a used block is only evicted after its used flag was cleared in an earlier pass.",
  "every cache list, flags and hand position",
  "depends on the whole cache state and hand movement",
  ["src/SparseFile.cpp:SparseFileManager::deallocateBlock","src/SparseFile.cpp:SparseFileManager::deallocateBlocks"])
# ---------------- Ogawa
p("Ogawa archives round-trip any tree",
  "Any tree of groups and non-empty data blobs written through the Ogawa writer and closed is read back by the Ogawa reader as the same tree: same children in the same order, same kinds, same bytes, also for empty groups.",
  "every finite tree, every byte content, every depth",
  "unbounded recursive structures and byte offsets",
  ["src/OGroup.cpp:OGroup::freeze","src/OGroup.cpp:OGroup::createData","src/OArchive.cpp","src/IGroup.cpp:IGroup::getGroup","src/IData.cpp:IData::read"])
p("A crash while writing an Ogawa archive never shows a half-written tree",
  "If the writing process stops after any prefix of its file writes, opening the result yields either an invalid archive, an archive with an empty root, or the complete tree; and the archive is flagged as properly closed only if everything was written.",
  "every tree, every crash point between writes (in-order writes)",
  "ranges over every crash point of every archive",
  ["src/OStream.cpp:OStream","src/OGroup.cpp:OGroup::freeze","src/IArchive.cpp","src/IStreams.cpp:IStreams::init"])
p("Reading Ogawa data stays inside the data block",
  "Reading from an Ogawa data block with an offset and size that add up to at most the block size returns exactly those bytes, and any request past the end reads nothing, provided offset+size does not wrap around 64 bits; a wrapping request passes the bounds check.",
  "every offset and size (64-bit), every file content",
  "the 64-bit input space, including wrap-around",
  ["src/IData.cpp:IData::read","src/OData.cpp:OData::rewrite"])
p("Adding empty data to a group adds one child",
  "Each data item added to an Ogawa group takes exactly one child slot, so the index of later children equals the number of items added before them. This holds for non-empty data and empty groups; for zero-length data the writer adds two slots.",
  "every sequence of additions to a group",
  "sequence-dependent index shift",
  ["src/OGroup.cpp:OGroup::createData","src/OGroup.cpp:OGroup::addData"])
p("Light and full group reading agree",
  "Reading a group in light mode (children fetched on demand) and in full mode (children table read at open) gives the same children, kinds and data for every group.",
  "every group size, in particular on both sides of the light-mode threshold",
  "two code paths must agree for all group sizes and contents",
  ["src/IGroup.cpp:IGroup::init","src/IGroup.cpp:IGroup::getGroup","src/IGroup.cpp:IGroup::getData"])
p("Named lookup finds the first child of the right kind",
  "Looking up a group, attribute or dataset by name in an F3D group returns the first child of that kind with that name and nothing else; a path with '/' resolves one component at a time; names listed for a kind are exactly the names for which lookup succeeds.",
  "every group contents, every name and path",
  "unbounded contents and paths, duplicates of names and kinds",
  ["src/OgIGroup.cpp:OgIGroup::findGroup","src/OgIGroup.cpp:OgIGroup::recursiveFindGroup","src/OgIGroup.cpp:OgIGroup::groupNames","include/OgIGroup.h:OgIGroup::findAttribute"])
p("Attributes round-trip with their type",
  "An attribute written with a name, type and value is read back with the same value when asked for with the same type, and is reported as absent when asked for with another type; string values come back up to their first NUL character.",
  "every name without '/', every type and value",
  "all strings and types, embedded NULs",
  ["include/OgOAttribute.h:OgOAttribute","include/OgIAttribute.h:OgIAttribute","src/OgUtil.cpp:readString"])
# ---------------- field I/O
p("Dense fields round-trip through a file",
  "Writing a DenseField to an Ogawa file and reading it back gives a field with the same extents, data window and the same value at every voxel.",
  "every size, origin, extents and content",
  "unbounded sizes and contents",
  ["src/DenseFieldIO.cpp:DenseFieldIO::writeInternal","src/DenseFieldIO.cpp:DenseFieldIO::readData"])
p("Sparse fields round-trip through a file",
  "Writing a SparseField to an Ogawa file and reading it back gives a field with the same windows, block order, allocation state, empty values and the same value at every voxel, for fields with any mix of allocated and unallocated blocks.",
  "every size, block order, allocation pattern and content",
  "the mapping between block numbers and stored datasets depends on the allocation pattern",
  ["src/SparseFieldIO.cpp:SparseFieldIO::writeInternal","src/SparseFieldIO.cpp:SparseFieldIO::readData","include/OgSparseDataReader.h"])
p("Threaded block reading is schedule-independent",
  "Reading the blocks of a sparse field with any number of threads fills every allocated block exactly once with its own data from the file, for every interleaving of the threads.",
  "every number of threads, every schedule, every allocation pattern",
  "schedules",
  ["src/SparseFieldIO.cpp:ReadBlockOp","src/SparseFieldIO.cpp:ThreadingState"])
p("Threaded block writing keeps file order",
  "Writing the blocks of a sparse field with one thread writes every allocated block once and in block order. With two threads there is a schedule on a field with an unallocated block between allocated ones in which the shared 'next block' counter skips an allocated block, so that block is never written and the write never returns, and another in which the write returns with two blocks in the wrong order; in every schedule each allocated block is written at most once; with the counter update made atomic, or with every block allocated, every schedule writes in order.",
  "every number of threads, every schedule, every allocation pattern",
  "schedules; the failing interleaving is a narrow window",
  ["src/SparseFieldIO.cpp:WriteBlockOp","src/SparseFieldIO.cpp:ThreadingState"])
p("Chunked HDF5 block reading covers every block",
  "The HDF5 sparse reader, which reads stored blocks in fixed-size passes, gives every allocated block its own data whatever the number of blocks per pass, and never asks for data past the end of the stored array.",
  "every number of stored blocks, every pass size >= 1, every allocation pattern",
  "boundary between passes",
  ["src/SparseFieldIO.cpp:SparseFieldIO::readData (HDF5)"])
p("MAC fields written to Ogawa files are lost",
  "writing a field layer reports success only if the layer can be read back. This fails for MAC fields in Ogawa files: the write reports success and stores no voxel data and the read returns nothing, for every MAC field. It holds for dense and sparse fields.",
  "every MAC field",
  "must hold for all field types and contents; the failure is silent",
  ["src/MACFieldIO.cpp:MACFieldIO::write(OgOGroup)","src/MACFieldIO.cpp:MACFieldIO::read(OgIGroup)","src/Field3DFile.cpp:Field3DOutputFile::writeLayer"])
p("Written layers can be found again by name",
  "After any sequence of successful layer writes to one output file, reading by partition name and layer name returns every layer written under those names, once each, in the order of their partitions (those with the same mapping in the order of writing); layers of other names are not returned. Fields with the same partition name but different mappings are stored separately, and those with identical mapping share a partition unless a layer name repeats. Writing succeeds for all names without '/' and all mappings of known classes; a mapping class that cannot be written makes the next write under the name use a null pointer. A layer named 'mapping' is not found again.",
  "every sequence of writes with any partition names, layer names and mappings",
  "history-dependent naming, collisions between partition suffixes and user names",
  ["src/Field3DFile.cpp:Field3DOutputFile::writeLayer","src/Field3DFile.cpp:Field3DFileBase::intPartitionName","src/Field3DFile.cpp:Field3DInputFile::readLayers","src/Field3DFile.cpp:Field3DInputFile::readPartitionAndLayerInfo"])
p("Listing names reports exactly what was written",
  "getPartitionNames returns each user partition name once, sorted, and getScalarLayerNames returns the layer names of a partition once each, for any file just read or written by a fresh file object. Reusing an output file object for a second file makes layer names of reused partition names disappear from the listing.",
  "every sequence of writes and create/close cycles",
  "depends on the object's history over several files",
  ["src/Field3DFile.cpp:Field3DFileBase::getPartitionNames","src/Field3DFile.cpp:Field3DFileBase::getScalarLayerNames","src/Field3DFile.cpp:Field3DFileBase::removeUniqueId","src/Field3DFile.cpp:Field3DFileBase::clear"])
p("Metadata set is metadata got",
  "For each metadata kind, looking up a name returns the last value set under that name and kind, or the given default if none was set; setting a name in one kind does not affect the other kinds or other names.",
  "every history of set operations, every name and kind",
  "unbounded histories",
  ["src/FieldMetadata.cpp:FieldMetadata","export/FieldMetadata.h"])
p("Metadata round-trips through a file",
  "Metadata whose names are non-empty, unique across kinds and free of '/' is read back from an Ogawa file with the same kinds and values, strings being cut at their first NUL. If two kinds share a name, only the first written survives; a name with '/' is lost; an empty name hides the metadata written after it.",
  "every finite metadata contents",
  "arbitrary names and kinds, collisions",
  ["src/Field3DFile.cpp:writeMetadata","src/Field3DFile.cpp:readMetadata"])
p("Mappings round-trip through a file",
  "A matrix mapping with any number of time samples is read back from an Ogawa file, and from an HDF5 file in the current or the old format, as an identical mapping; a null mapping comes back as a null mapping and an unknown mapping class as no mapping. If the number of samples, or a time or matrix of a sample, is missing in the file, no mapping is read. Different bits mean different numbers, the two zeros aside. A frustum mapping is written without undefined behaviour if it has no samples or a sample at time 0, and its HDF5 file is read back to the same samples and distribution, and without a stored distribution as perspective; but its Ogawa file is not: the reader ignores the stored sample count and returns the default frustum.",
  "every list of time samples",
  "all sample counts and times",
  ["src/FieldMappingIO.cpp:MatrixFieldMappingIO","src/FieldMappingIO.cpp:FrustumFieldMappingIO::read"])
p("The field cache only returns the field for that file and layer",
  "A field obtained from the layer cache is a live field that was cached under the same file name and layer path and element type; after the last reference to it is dropped the cache returns nothing. Two different (file, partition, layer) requests never collide when names contain no '/'.",
  "every history of cacheField/getCachedField/release operations, all names",
  "history and key-collision dependent",
  ["export/FieldCache.h:FieldCache::getCachedField","export/FieldCache.h:FieldCache::cacheField"])
# ---------------- MIP & resample
p("MIP chains cover the base and shrink",
  "Building a MIP with zero offset from any base whose windows coincide terminates and yields levels of which each is no larger than the previous along every axis and strictly smaller along at least one (so it is accepted as a MIP field), and the voxels of level l cover the base exactly (l-fold halved, rounded up). With non-zero offset this can fail: there are bases for which the chain is rejected or a level misses base voxels.",
  "every base resolution, every minimum size, every level",
  "all resolutions; rounding",
  ["src/MIPUtil.cpp:mipResolution","export/MIPUtil.h:makeMIP","export/MIPField.h:MIPField::sanityChecks"])
p("MIP filtering reads the right voxels",
  "With zero offset, each pass of the box-filtered MIP gives each coarse voxel the average of the (one or two) fine voxels it covers, and the min (max) filtered MIP gives a value at most (at least) every fine voxel it covers.",
  "every resolution, every content, every coarse voxel",
  "all resolutions and contents; edges with odd sizes",
  ["export/MIPUtil.h:MIPSeparableThreadOp","src/Resample.cpp:BoxFilter"])
p("Threaded MIP work is done exactly once",
  "The worker threads that fill a MIP level take every work block exactly once whatever the interleaving, and their blocks together contain every target voxel exactly once; so for dense targets the result is schedule-independent.",
  "every number of threads, every schedule, every resolution",
  "schedules",
  ["export/MIPUtil.h:MIPSeparableThreadOp::operator()","export/MIPUtil.h:mipSeparable"])
p("Skipping empty MIP input is sound for narrow filters",
  "When the sparse MIP builder skips a work block because the source blocks of its padded source region are all unallocated with zero as empty value, the skipped voxels would have been zero: for box, triangle, min and max filters at any block size, for the Mitchell filter at blocks of four voxels or more and for the Gaussian filter at blocks of eight voxels or more. With smaller blocks the padding is too small for these two filters: non-zero contributions are dropped.",
  "every source field, every work block",
  "depends on filter support vs padding arithmetic for all positions",
  ["export/MIPUtil.h:checkInputEmpty","export/MIPUtil.h:MIPSeparableThreadOp"])
p("Resampling weights are normalised and conservative",
  "Resampling a field whose window begins at zero and has more than one voxel along each axis gives a field of the requested resolution without reading any voxel outside the source, for any filter; other fields are refused. The box filter gives each voxel the mean, the min (max) filter the least (greatest) of the source voxels that belong to it; filters without negative weights stay within the range of the source and keep constants; resampling to the same resolution changes nothing for filters that vanish at whole distances.",
  "every source and target resolution, every content (exact arithmetic)",
  "all resolution ratios and contents",
  ["export/Resample.h:separable","src/Resample.cpp:srcSupportBBox"])
# ---------------- misc
p("Local and voxel space mappings are inverse",
  "For any extents, voxelToLocal and localToVoxel are inverse to each other, map the extents' corner cells to the unit cube, and for a matrix mapping with invertible transform worldToVoxel and voxelToWorld are inverse at every sampled time.",
  "every extents with positive size, every point, every invertible affine transform (exact arithmetic)",
  "continuous domain",
  ["src/FieldMapping.cpp:FieldMapping::localToVoxel","src/FieldMapping.cpp:FieldMapping::voxelToLocal","src/FieldMapping.cpp:MatrixFieldMapping::updateTransform"])
p("World bounds of a voxel box contain the box",
  "The world/voxel bounding box computed from the eight transformed corners contains the image of every point of the box, for every affine transform.",
  "every affine transform, every box, every point in it",
  "continuous domain; all sign combinations of the transform",
  ["src/FieldMapping.cpp:FieldMapping::worldToVoxel","export/FieldMapping.h:transformBounds"])
p("Animation curves interpolate their samples",
  "After any sequence of addSample calls a curve's samples are sorted by strictly increasing time, one per distinct time holding the last value given for it; linear evaluation returns the sample value at each sample time, the first/last value before/after the range, and a value between the two neighbouring samples in between.",
  "every sequence of additions, every evaluation time",
  "unbounded insertion orders and continuous time",
  ["export/Curve.h:Curve::addSample","export/Curve.h:Curve::linear"])
p("File sequences expand to consecutive frame names",
  "A sequence pattern 'name-START-END#suffix' style expands to exactly the names with each number from START to END in increasing order, patterns without one sequence mark or without range expand to nothing, and an existing file of the literal name is returned alone.",
  "every base name, suffix, start and end",
  "unbounded strings and ranges",
  ["src/FileSequence.cpp:FileSequence"])
p("Pattern matching: exclusions win",
  "A name/attribute pair matches a pattern list exactly when some inclusion pattern matches it and no exclusion pattern does, independent of the order and repetition of the patterns; empty patterns have no effect, and an empty list matches exactly when the empty-pattern flag is given.",
  "every pattern list, name and attribute, every glob matcher",
  "all lists and orders",
  ["src/PatternMatch.cpp:match","src/PatternMatch.cpp:split"])
p("The class factory honours the first registration",
  "After any sequence of registrations, creating by class name uses the first factory registered under that name, and names never registered create nothing; later registrations never change existing names.",
  "every registration history",
  "unbounded histories",
  ["src/ClassFactory.cpp:ClassFactory::registerField","src/ClassFactory.cpp:ClassFactory::createField"])
p("Reference counts delete exactly once",
  "For a reference-counted object used by one thread at a time, the object is deleted exactly when the last reference is dropped and never before. With two threads releasing concurrently there is a schedule that deletes it twice, because the decrement and the zero test are separate steps; with a decrement-and-test no schedule does.",
  "every history of copies and releases, every schedule",
  "schedules",
  ["export/RefCount.h:RefBase::unref","export/RefCount.h:intrusive_ptr_release"])
p("Multi-point sampling equals point-by-point sampling",
  "Sampling many points at once over a list of fields gives for each point the same accumulated value and hit count as sampling it alone, regardless of the number of points; a min/max query over several fields bounds every voxel value of the intersecting ones. The last part fails when a non-intersecting field comes before an intersecting one (all later fields are skipped), for regions with negative coordinates, for half fields after float fields, and it never bounded interpolated values.",
  "every list of fields, every list of points",
  "unbounded lists and orders",
  ["export/FieldSampler.h:FieldSampler::sample","export/FieldSampler.h:FieldSampler::sampleMultiple","export/FieldSampler.h:FieldSampler::getMinMax"])
p("Cell-centered/MAC conversion is consistent",
  "Converting a cell-centered vector field to MAC sets each interior face to the average of its two neighbour cells and each boundary face to its single neighbour cell; converting a MAC field to cell-centered gives the average of opposite faces; converting a constant field there and back gives the same constant, also when a rotation about one axis is applied; with rotations about two axes it does not, because the code negates the angles without reversing their order.",
  "every non-empty data window, every content (exact arithmetic)",
  "boundary faces for all sizes",
  ["export/MACFieldUtil.h:convertMACToCellCentered","export/MACFieldUtil.h:convertCellCenteredToMAC"])
p("Fitting a coordinate system covers the bounds",
  "coordinateSystem(bounds, voxelSize, extents) yields integer extents whose voxels cover the given world bounds; for bounds with negative coordinates the rounding goes the wrong way and the extents can miss part of the bounds. The extents have one voxel too many along each axis, so the voxels of a mapping made from them are smaller than asked for.",
  "every bounds and voxel size",
  "continuous inputs, negative coordinates",
  ["export/CoordSys.h:coordinateSystem"])
p("Lazy MIP levels load once",
  "With any number of threads touching the levels of a lazily loaded MIP field, each level's load action runs until it first gives a field and never again, every access that returns gives that same field and never a null pointer, each failed call makes exactly one access throw, levels nobody asks for are not loaded, and no thread waits forever. But a level becomes visible to other threads before its metadata and mapping are set.",
  "every number of threads, every schedule",
  "schedules",
  ["export/MIPField.h:MIPField::loadLevelFromDisk"])
p("Sparse field memory is neither leaked nor freed twice",
  "In every program that creates, copies, assigns, writes, clears, resizes, releases blocks of and destroys sparse fields, no block table or voxel buffer is used after it was freed, none is freed twice, no two fields or blocks ever own the same buffer, and once all fields are destroyed no block table or voxel buffer is left allocated.",
  "every finite program over any number of fields",
  "histories of any length over any number of fields; leaks and double frees depend on the order of copies and destructions",
  ["export/SparseField.h:SparseField::copySparseField","export/SparseField.h:SparseField::operator=","export/SparseField.h:SparseField::~SparseField","export/SparseField.h:SparseField::setupBlocks"])
p("Concurrent readers of dynamic fields do not lock each other up",
  "When several threads read dynamically loaded fields with memory limiting on, every read can finish: from every reachable state some schedule completes all reads. This holds when the limit has room for one block more than there are threads; with less room there are schedules after which two threads wait for each other for ever, even if the cache is flushed or limiting is switched off.",
  "every number of threads, every schedule, every history of reads",
  "schedules of several threads; the lock-up needs a particular interleaving of three of them",
  ["export/SparseFile.h:SparseFileManager::activateBlock","src/SparseFile.cpp:SparseFileManager::deallocateBlocks"])
p("Stored sizes are checked against the field",
  "Reading a layer never writes outside the buffers of the field being read. This fails: the dense reader copies the stored bytes without comparing their number to the size of the data window, so a file with longer data overruns the buffer (exactly then), and shorter data is accepted silently.",
  "every data window, voxel type and stored data",
  "needs every inconsistent file",
  ["src/DenseFieldIO.cpp:DenseFieldIO::readData(OgIGroup)","include/OgIDataset.h:OgIDataset::getData"])
p("Reported voxel sizes are the distances between voxels",
  "The voxel size a mapping reports is the world space distance between neighbouring voxels: for a matrix mapping with affine transforms anywhere in the field, for a frustum mapping (of at least two slices) in the middle of the given slice, with the last slice given the size of the one before it and slices outside of the extents that of the nearest; asking for any slice is defined. A frustum mapping of a single slice reports zero or a size left from earlier extents.",
  "every extents, history of calls and slice index",
  "continuous transforms and all extents; the single-slice case depends on history",
  ["src/FieldMapping.cpp:FrustumFieldMapping::computeVoxelSize","src/FieldMapping.cpp:FrustumFieldMapping::wsVoxelSize","src/FieldMapping.cpp:MatrixFieldMapping::updateTransform"])
p("Ray intersections and bounds of groups of fields",
  "Intersecting a ray with a group gives one interval per field hit, in field order. For a field with a matrix mapping it is exactly the set of ray parameters whose world points lie in the extents of the field, and a field without interval has no point in front of the ray's start. For a perspective frustum seen by an ordinary camera and a ray not parallel to its faces the same holds from the start of the ray on. Rays parallel to a face outside it are reported as hits, frustums behind the ray give intervals that end before they start, and mirrored frustums are missed. The world space bounds of a group are the smallest box containing the extents of all of its fields.",
  "every ray, transform and group of fields",
  "continuous inputs; every position of ray and frustum",
  ["export/FieldGroup.h:detail::intersect","export/FieldGroup.h:FieldGroup::GetIntersections","export/FieldGroup.h:FieldGroup::GetWsBounds"])
p("A whole file is read back from its bytes",
  "A program writes any dense, sparse and MIP fields with any partition and layer names, null or matrix mappings and metadata, and metadata of the file, to an Ogawa file and closes it. Every call succeeds. The bytes of the file open again, and reading any partition and layer name gives exactly the fields written under it, each of them once, with every voxel (of every level of a MIP field, once loaded), both windows, the metadata (in which a MIP field always finds its offset, zero if none was written, and reports it), the names and a mapping that is identical to that of the field; fields of another voxel type or of an unknown class are left out, and the metadata of the file is that given first.",
  "every program of calls, every field content, every order in which the contents reach the archive, every schedule of the reading threads that lets them finish",
  "composes archive, groups, partitions, fields, mappings and metadata for unbounded contents and all schedules",
  ["src/Field3DFile.cpp:Field3DOutputFile::writeLayer","src/Field3DFile.cpp:Field3DInputFile::readLayers","src/Field3DFile.cpp:writeField","src/Field3DFile.cpp:readField","src/OArchive.cpp:OArchive"])
p("Comparing mappings",
  "Comparing any two mappings built by any calls is defined. Without tolerance the comparison is reflexive, symmetric and transitive; mappings of different kinds are never identical; identical matrix mappings place every point at the same spot at every time unless two of their matrices differ by shear alone, and mappings with the same samples and extents are identical. A mirrored mapping is never identical to the original. Shears are not compared: two fields whose mappings differ by a shear alone, written to a file under one name, are read back with one and the same mapping. With a tolerance the comparison is neither symmetric nor transitive.",
  "every pair or triple of mappings, every history of calls that made them, every tolerance",
  "continuous transforms and unbounded numbers of samples; relations between three objects",
  ["src/FieldMapping.cpp:checkMatricesIdentical","src/FieldMapping.cpp:MatrixFieldMapping::isIdentical","src/FieldMapping.cpp:FrustumFieldMapping::isIdentical","src/Field3DFile.cpp:File::intPartitionName"])
p("Copying and comparing fields",
  "Copying a field into a dense or sparse field of the same or another voxel type always ends, with the windows of the source and the converted value of the source in every voxel, whatever the target held; a sparse target has every block allocated afterwards. After copying, or after matching definitions, the two fields have the same definition: windows, and a mapping that places every voxel alike. Comparing two fields ends and is true exactly if the windows are equal, the mappings identical and no voxel differs; a copy without NaN is identical to its source. Copying a field to itself loses all of its voxels; copying into a MAC field copies no voxel; a field with a NaN is not identical to itself.",
  "every source, every history of windows and mappings of both fields, every voxel content",
  "unbounded windows and contents; relations between two fields with histories",
  ["export/Field.h:ResizableField::copyFrom","export/Field.h:ResizableField::matchDefinition","export/Field.h:sameDefinition","export/Field.h:isIdentical"])
p("MIP levels lie where the base lies",
  "For a MIP field whose matrix mapping has affine samples that keep the lengths of the voxel edges, every level is placed so that its voxel p covers exactly the base voxels it was filtered from, at every time, with any offset, and whether the level is built from memory or loaded later: a world point in a base voxel lies in the coarse voxel of that base voxel. With the offsets computed from their mappings, the levels of fields on a common grid are again on a common grid. A field that grows over time has its levels misplaced, since the voxel size at time zero is used for all samples; a matrix mapping without samples has its levels misplaced; levels of frustum mappings are stretched over the frustum, which is right only when the resolution is divisible and ignores the offset.",
  "every history of calls on the mapping, every offset, level, extents, time and point",
  "continuous transforms, unbounded levels and times",
  ["src/MIPUtil.cpp:detail::adjustedMIPFieldMapping","src/MIPUtil.cpp:computeOffset","export/MIPField.h:MIPField::mappingChanged","export/MIPField.h:MIPField::loadLevelFromDisk"])
p("Min and max fields bound the field",
  "makeMinMax of a field that begins at zero and has two to 2^24 voxels along each axis succeeds for every fraction asked for, and gives a min and a max field with the same levels. In each voxel of each level the min (max) field has the least (greatest) of the values of the field whose voxel centres lie in that voxel, every voxel of the field is in some voxel of every level, and levels have no voxels without a centre. With a matrix mapping that keeps its size the levels fill the space of the field at every time. If the resolution of the field is a multiple of that asked for, the value of the field at every point lies between min and max there; otherwise there are points where the field is below its min field. A field with one voxel along an axis or that does not begin at zero gets empty min and max fields, without an error.",
  "every content, resolution, fraction, level, voxel, time and point",
  "unbounded resolutions and levels; every point of space",
  ["export/MinMaxUtil.h:makeMinMax","export/Resample.h:separableResample","export/MIPUtil.h:makeMIP"])
p("MIP fields come back from files level by level",
  "A MIP field of any number of levels, each a dense or a sparse field, with no more voxels along any axis than the one before it and fewer along some, that is written to a file is read back with the same number of levels, the windows of the field and the resolution of every level known before anything is loaded, and every level, whenever it is asked for, loads as exactly the level written: windows and every voxel. Read as another voxel type it gives a null pointer and no level. A field without levels, or with a level that is not smaller than the one before, is written without complaint and gives an exception when read, never a field.",
  "every number of levels, every content and kind of level, every other contents of the file",
  "unbounded numbers of levels, sizes and contents",
  ["src/MIPFieldIO.cpp:MIPFieldIO::read(OgIGroup)","src/MIPFieldIO.cpp:MIPFieldIO::write(OgOGroup)","include/MIPFieldIO.h:MIPFieldIO::readInternal","include/MIPFieldIO.h:GenericLazyLoadAction::load","export/MIPField.h:MIPField::setupLazyLoad"])
p("The offset of a MIP field",
  "The offset a MIP field reports is the one given last, and it is the one in its metadata, through any sequence of setting mappings and offsets, setting up levels from memory or for loading on demand, using levels and setting other metadata. Setting a mapping or levels takes the offset from the metadata, so a field that is read from a file has the offset that was stored. After a mapping or levels were set, the voxel coordinates of any world point in any level in memory or loaded since are those that sampling uses. makeMIP gives a field with the offset asked for and otherwise the metadata of the base. Levels that do not shrink are refused with an exception, but the old levels are gone by then and setting a mapping is then undefined. An offset given after the levels were set up leaves the levels where they were, and metadata edited by hand moves levels loaded later without changing the reported offset.",
  "every sequence of calls, every mapping history, offset, level, time and world point",
  "unbounded histories of calls; continuous space and time",
  ["export/MIPBase.h:MIPBase::setMIPOffset","export/MIPField.h:MIPField::mappingChanged","export/MIPField.h:MIPField::setup","export/MIPField.h:MIPField::setupLazyLoad","export/MIPField.h:MIPField::loadLevelFromDisk","export/MIPUtil.h:makeMIP","src/MIPUtil.cpp:detail::adjustedMIPFieldMapping"])
p("Fields addressed with machine integers",
  "With the integer types of the source (int coordinates, size_t sizes), a dense field whose windows have sides below 2^31 and no more voxels than memory holds, a MAC field with fewer than 2^31 faces in each direction, and a sparse field with fewer than 2^31 blocks of at most 1024 voxels along each axis overflow in no resize, read, write, clear, block order change, release or grain lookup, and keep every voxel, face and block apart; the bounds are sharp. A dense field gets exactly its number of voxels modulo 2^64 elements, so a window with 2^64 voxels is accepted and has no elements; the voxel count reported and the number of elements written to a file are right exactly below 2^31 voxels. Grains and end iterators overflow exactly for windows that end at (for sparse grains: within a block of) the largest int.",
  "every window, every history of operations, every behaviour of overflowing operations, every allocator",
  "the sizes concerned need gigabytes to terabytes, and overflow may do anything",
  ["export/DenseField.h:sizeChanged","export/DenseField.h:fastValue","export/DenseField.h:getGrainBounds","export/MACField.h:sizeChanged","export/MACField.h:MACField::u","export/SparseField.h:setupBlocks","export/SparseField.h:blockId","export/SparseField.h:fastLValue","export/SparseField.h:getGrainBounds","export/Field.h:FieldRes::voxelCount","export/Field.h:indexToCoord","src/DenseFieldIO.cpp:DenseFieldIO::writeInternal(OgOGroup)","src/SparseFieldIO.cpp:SparseFieldIO::writeInternal(OgOGroup)"])
p("Sparse fields that load from files, as objects",
  "With memory limits on, sparse fields read from files load their blocks when they are read and may lose them to the cache at any moment. Through any sequence of making, reading from file, copying, assigning, editing, reading and destroying such fields and fields in memory, with evictions and flushes in between, every read gives the value that the field holds as a map of its own: the stored values, those of the field it was copied from, as edited since; writes to voxels of a field loaded from file are ignored; other fields are not affected. Every block table belongs to one field, the cache lists each loaded block of existing fields once and nothing else, and a flush frees the data of all of them without changing what is seen. This holds as long as a field loaded from file is not cleared, resized, given another block order or assigned to after being read since the last flush (then the cache is left with a deleted block, and the next flush is undefined), its blocks are not released (undefined if one is not loaded), and it is not copied after a block of it was given an empty value (the copy then reads the wrong blocks).",
  "every sequence of calls and evictions, every number of fields and layers, every content",
  "unbounded histories; evictions come at any moment; the failures are uses of freed memory",
  ["export/SparseField.h:SparseField::copySparseField","export/SparseField.h:SparseField::addReference","export/SparseField.h:SparseField::setupReferenceBlocks","export/SparseField.h:SparseField::fastValue","export/SparseField.h:SparseField::setupBlocks","export/SparseFile.h:SparseFileManager::activateBlock","export/SparseFile.h:SparseFileManager::removeFieldFromCache","src/SparseFile.cpp:SparseFileManager::flushCache","src/SparseFieldIO.cpp:SparseFieldIO::readData"])
p("Fields come back from HDF5 layers",
  "A dense, sparse or MAC field with any history that is written to an HDF5 layer is read back as the same field: windows, block order, allocated blocks, empty values and every value, with or without compression and whatever the memory limit of the reader, and whatever else is in the layer, which stays. Read as another voxel type it gives a null pointer. A layer holds one field; a second is refused. With compression a dense field of a single value is not written, but its layer is there and reading it throws. A field with a block that is not in memory, and a file with more values than the window has room for (unless the check, which rounds, notices), are undefined behaviour.",
  "every field with every history, every other contents of the layer, every memory limit, every voxel type",
  "unbounded sizes, histories and contents; all numbers of passes over the blocks",
  ["src/DenseFieldIO.cpp:DenseFieldIO::read(hid_t)","src/DenseFieldIO.cpp:DenseFieldIO::write(hid_t)","src/SparseFieldIO.cpp:SparseFieldIO::read(hid_t)","src/SparseFieldIO.cpp:SparseFieldIO::write(hid_t)","src/MACFieldIO.cpp:MACFieldIO::read","src/MACFieldIO.cpp:MACFieldIO::write","include/MACFieldIO.h:MACFieldIO::writeInternal","include/MACFieldIO.h:MACFieldIO::readData","export/SparseDataReader.h:SparseDataReader::readBlockList"])
p("HDF5 files are read back",
  "A new HDF5 file into which any layers and file metadata were written in any order of calls, of which some may have failed, can be opened again, whatever the order in which the library visits links and attributes. Reading by partition and layer name gives exactly the scalar (vector) layers written under these names, each once, with the field, its metadata and a mapping read back from one identical to that of the field; the lists of partitions and layers of the writer and of the reader are sorted and list exactly what was written. File metadata can be written once. Every write succeeds if no layer is named mapping and no two layers of the same names are of different kinds. Layers named mapping, layers of different kinds with the same names and mapping, and metadata that use one name for two kinds are refused. After a mapping that could not be written, or a layer name that begins with a slash (which is reported as written), the file cannot be opened; after a field that could not be written its names cannot be read.",
  "every sequence of calls, every names, mappings, fields and metadata, every visiting order of the library",
  "unbounded histories of calls and contents; the order of visits is not fixed",
  ["src/Field3DFileHDF5.cpp:Field3DOutputFileHDF5::create","src/Field3DFileHDF5.cpp:Field3DOutputFileHDF5::createNewPartition","src/Field3DFileHDF5.cpp:Field3DInputFileHDF5::open","src/Field3DFileHDF5.cpp:Field3DInputFileHDF5::readPartitionAndLayerInfo","export/Field3DFileHDF5.h:Field3DInputFileHDF5::readLayers","export/Field3DFileHDF5.h:Field3DOutputFileHDF5::writeLayer","src/Field3DFileHDF5.cpp:writeMetadata","src/Field3DFileHDF5.cpp:readMetadata"])
p("File objects used for several files",
  "A file object can be used for one file after the other. Whatever an input object was used for, an HDF5 file is then opened and read as by a new HDF5 object; an object that has met only Ogawa and missing files opens and reads an Ogawa file as a new object does, with the metadata of the file laid over those of the files before. An output object writes an HDF5 file, whatever it was used for, as a new HDF5 object does; with Ogawa files only, every call has the effect it has for the Ogawa format. This is where it ends: metadata of earlier Ogawa files stay; after a file that is not an Ogawa file was opened, in vain or not, opening an Ogawa file returns true but nothing is listed or read; readLayers finds nothing in an HDF5 file; after an HDF5 file was created, creating an Ogawa file returns true but all scalar and vector layers and metadata are refused; writeLayer does not write to an HDF5 file but is refused or goes to the Ogawa file made before, which is still open.",
  "every sequence of opening, closing, clearing, creating and writing, every file, every field class",
  "unbounded histories of an object over files of two formats",
  ["src/Field3DFile.cpp:Field3DInputFile::open","src/Field3DFile.cpp:Field3DFileBase::clear","src/Field3DFile.cpp:Field3DFileBase::close","src/Field3DFile.cpp:Field3DInputFile::readLayers","src/Field3DFile.cpp:Field3DOutputFile::create","src/Field3DFile.cpp:Field3DOutputFile::writeLayer","src/Field3DFile.cpp:Field3DOutputFile::writeGlobalMetadata","export/Field3DFile.h:Field3DInputFile::readScalarLayers","export/Field3DFile.h:Field3DOutputFile::writeScalarLayer","export/Field3DFile.h:Field3DInputFile::metadata","export/Field3DFile.h:Field3DInputFile::encoding"])
p("Proxies of layers",
  "Reading the proxies of a partition and layer name gives one for each layer written under these names, in the order in which the layers themselves are read, with the windows of the field, its metadata, the number of MIP levels as integer metadata mip_levels, its names and the mapping of its partition; reading the proxies of a layer name, or of all if it is empty, gives one for each layer of that name in a partition with a name, sorted by partition and layer name. This holds for every Ogawa file of dense, sparse and MIP fields of any voxel types written in any order of calls, and for every HDF5 file (there, of the scalar or vector layers only), and through a file object with any history for HDF5, or of Ogawa files only for Ogawa. It ends here: Ogawa files give the same proxies for scalar and for vector layers; one MAC field in an Ogawa file makes every list that includes it throw; files written with an object used before may give no proxies in the lists; integer metadata of the field's own named mip_levels are replaced.",
  "every sequence of calls, every names, fields, mappings and metadata, every order of visits, every history of the object",
  "unbounded histories and contents",
  ["src/Field3DFile.cpp:Field3DInputFile::readProxyLayer","src/Field3DFile.cpp:Field3DInputFile::readProxyScalarLayers","src/Field3DFile.cpp:Field3DInputFile::readProxyVectorLayers","export/Field3DFileHDF5.h:Field3DInputFileHDF5::readProxyLayer","export/Field3DFileHDF5.h:Field3DInputFileHDF5::readProxyScalarLayers"])
p("Fields without voxels",
  "An EmptyField has the windows that were last set. After any calls that keep to its data window every voxel inside it has the value of the last clear; writing to voxels and setting the constant value change no voxel; the constant value is that of the last call that set it. Until clear is called the values of a proxy are not initialised.",
  "every sequence of calls, every field",
  "unbounded sequences of calls; uninitialised values may look right in a test",
  ["export/EmptyField.h:EmptyField::value","export/EmptyField.h:EmptyField::lvalue","export/EmptyField.h:EmptyField::clear","export/EmptyField.h:EmptyField::setConstantvalue","export/EmptyField.h:EmptyField::constantvalue"])
p("Whole HDF5 files with the library's mappings",
  "Null, matrix and frustum mappings with any history of samples come back from an HDF5 file with the same transforms at every time and the same comparison with every other mapping; only a frustum mapping with samples but none at time zero cannot be written (undefined behaviour). So an HDF5 file into which any dense and sparse fields with such mappings and metadata were written gives back, by partition and layer name, exactly the layers written under these names, each once, with its field, its metadata and the mapping of a field of the same partition name that the library takes for identical; if no two mappings under a partition name differ by shear or mirroring only, with its own mapping. Groups of the old format, with one matrix, are read as this matrix at all times. A mapping of an unknown class is refused by the writer and gives null when read. A group from which a sample is missing throws an exception; one from which the number of samples is missing gives a mapping without samples, or the default frustum, in place of the mapping that was written.",
  "every sequence of calls, names, fields, metadata and mappings with any samples, every visiting order of the library",
  "unbounded histories of calls, fields and numbers of samples",
  ["src/FieldMappingIO.cpp:NullFieldMappingIO","src/FieldMappingIO.cpp:MatrixFieldMappingIO::read(hid_t)","src/FieldMappingIO.cpp:MatrixFieldMappingIO::write(hid_t)","src/FieldMappingIO.cpp:FrustumFieldMappingIO::read(hid_t)","src/FieldMappingIO.cpp:FrustumFieldMappingIO::write(hid_t)","src/Field3DFileHDF5.cpp:readFieldMapping","src/Field3DFileHDF5.cpp:writeFieldMapping","src/Field3DFileHDF5.cpp:Field3DOutputFileHDF5::writeMapping","src/Field3DFileHDF5.cpp:Field3DInputFileHDF5::readPartitionAndLayerInfo"])
p("MIP fields in HDF5 files",
  "A MIP field of dense or sparse levels that is written to an HDF5 file comes back: its class of levels, voxel type, the windows of level 0, the number and the resolutions of the levels, the offset in its metadata, and, when they are loaded, every level with its windows and every voxel. So does a whole file with any dense, sparse and MIP fields, with their mappings and metadata. A proxy has the windows of level 0 and the number of levels. Asking for another voxel type gives null. Levels that do not shrink, or no levels, give an exception. A dense level of a single value, however, is not stored by a library with compression, although writing succeeds: loading it throws.",
  "every sequence of calls, names, fields, levels, metadata and mappings, every visiting order of the library",
  "unbounded numbers of levels and layers and histories of calls",
  ["src/MIPFieldIO.cpp:MIPFieldIO::read(hid_t)","src/MIPFieldIO.cpp:MIPFieldIO::write(hid_t)","include/MIPFieldIO.h:MIPFieldIO::writeInternal","include/MIPFieldIO.h:MIPFieldIO::readInternal","include/MIPFieldIO.h:GenericLazyLoadActionHDF5::load","export/Field3DFileHDF5.h:readField"])
p("Casts and choices by class",
  "field_dynamic_cast gives a pointer exactly if the object is of the class asked for or of one derived from it, for fields, interpolators, mappings and IO classes of all voxel types and for classes outside the library derived from them to any depth, given that these have type strings of their own; casts up never fail. So the writers of dense, sparse, MAC and MIP fields write a field as what it is, of the six stored voxel types (three for MAC fields), and throw for anything else, and a field group adds a field to the one list of its class and voxel type, or to none. It ends here: a cast to FieldBase is always null; empty fields of all voxel types, the generic interpolators of all field classes of a voxel type, the two Partition classes, and MIPDenseField and MIPSparseField with the classes they derive from, are taken for one another; and a field group leaves MAC, procedural and empty fields out without a message.",
  "every class and voxel type, every chain of derived classes, every list of voxel types of a group",
  "unbounded chains of classes and voxel types; every pair of classes",
  ["export/RefCount.h:field_dynamic_cast","export/RefCount.h:DEFINE_MATCH_RTTI_CALL","export/RefCount.h:RefBase::matchRTTI","export/Traits.h:TemplatedFieldType","export/Traits.h:NestedFieldType","export/Traits.h:DataTypeTraits::name","export/EmptyField.h:EmptyField::staticClassType","src/DenseFieldIO.cpp:DenseFieldIO::write","src/SparseFieldIO.cpp:SparseFieldIO::write","src/MACFieldIO.cpp:MACFieldIO::write","src/MIPFieldIO.cpp:MIPFieldIO::write","export/FieldGroup.h:FieldGroup::setup","export/FieldGroup.h:FieldGroup::GrabFields"])
p("Groups of layers in HDF5 files",
  "Groups of layers that were added to an HDF5 file before writeGroupMembership, in any number of calls, are in the file: the call returns true, and readGroupMembership gives every group exactly its members in the order in which they were added, with partitions named without numbers, whatever was written before and after; entries of the caller's map for other groups stay. Everything else in the file is as without groups: results of calls, names, mappings, metadata and layers. Without the call there are no groups. A second call for the same file returns false and changes nothing. But members whose text does not end with a blank run together with those of the next call and make reading undefined behaviour; creating another file keeps the groups of the one before; and partition names with a dot lose what is behind it.",
  "every sequence of calls about layers, file metadata and groups, all names and members, every visiting order of the library",
  "unbounded histories of calls and numbers of groups and members",
  ["src/Field3DFileHDF5.cpp:Field3DFileHDF5Base::addGroupMembership","src/Field3DFileHDF5.cpp:Field3DOutputFileHDF5::writeGroupMembership","src/Field3DFileHDF5.cpp:Field3DInputFileHDF5::readGroupMembership","src/Field3DFileHDF5.cpp:Field3DInputFileHDF5::readPartitionAndLayerInfo"])
p("Plugins and the class factory",
  "Plugins are the files in the directories of FIELD3D_DSO_PATH whose name is so or ends in .so (dots at the end not counted). Every call about the class factory and plugins ends, no registration function is ever called for two files of the same name, whatever a program calls and however the search path, directories and files change in between, and the factory in use is never a deleted one. When a factory exists, loadPlugins calls the registration functions of all plugins with new names once, in the order of the search path, with this factory; the first plugin that provides a class decides. But when the first use of the factory loads the plugins, which is what initIO and file objects do, every registration function is called with a factory that is deleted before the call ends, in reverse order, and the program finds no class of any plugin. When loadPlugins is the first call, only the classes of the first plugin are found. A file hides all later ones of its name even if it cannot be opened.",
  "every search path, directory contents and plugins, every sequence of calls with changes in between",
  "unbounded numbers of plugins, nested constructor calls and histories",
  ["src/PluginLoader.cpp:PluginLoader::loadPlugins","src/PluginLoader.cpp:getDirSos","src/PluginLoader.cpp:filter","src/PluginLoader.cpp:findRegistrationFunc","src/ClassFactory.cpp:ClassFactory::ClassFactory","src/ClassFactory.cpp:ClassFactory::singleton","src/InitIO.cpp:initIO"])
p("Sparse layers read with limited memory",
  "Reading sparse layers of an Ogawa file with limited memory agrees with reading them without a limit, whoever wrote the file: if the data is compressed, as many blocks as the file says and intact, then in every permitted sequence of opening, reading, copying, assigning, editing and destroying fields, with blocks evicted or flushed at any moment, no call throws and every voxel that is read is that of the field which reading without a limit gives. So for layers of any fields written by the library, under any interleaving of its writing threads, and for all sparse layers of a whole file with any fields, mappings and metadata, the voxels are those of the fields that were written. It ends here: a layer with uncompressed blocks opens but throws when a voxel is read; a layer that says it has no occupied blocks although some are allocated reads as zeros without a limit and fails with it; and a block that cannot be uncompressed is zero without a limit and the empty value of the block with it.",
  "all groups of all files, all voxel types, every sequence of calls and evictions, every schedule of the writing threads",
  "unbounded histories of calls and evictions and all file contents",
  ["src/SparseFieldIO.cpp:SparseFieldIO::readData(OgIGroup)","src/SparseFieldIO.cpp:SparseFieldIO::read(OgIGroup)","src/SparseFile.cpp:Reference::loadBlock","src/SparseFile.cpp:Reference::openFile","include/OgSparseDataReader.h:OgSparseDataReader","export/SparseFile.h:SparseFileManager::activateBlock","export/SparseField.h:SparseField::fastValue","export/SparseField.h:SparseField::setupReferenceBlocks"])
p("Layers written with fewer names",
  "Fields can be written with a partition and layer name, with a layer name alone, or with neither. In Ogawa files, for any mix of these calls, reading by partition and layer name gives exactly the fields whose calls returned true and that belong there: by the names of the call, in the partition default if only the layer is named, and by name and attribute of the field if nothing is named. In HDF5 files the same holds for calls with both names or none, and fields without name or attribute are refused. But the call that names only the layer writes, in HDF5 files, a layer of the name default to a partition with the name of the layer, so nothing is found in the partition default; and in Ogawa files a field without a name is written successfully but never found by partition and layer name.",
  "every sequence of calls in all forms, all names, fields and mappings, every visiting order of the library",
  "unbounded histories of calls and all names",
  ["export/Field3DFile.h:Field3DOutputFile::writeLayer","export/Field3DFile.h:Field3DOutputFile::writeScalarLayer","export/Field3DFile.h:Field3DOutputFile::writeVectorLayer","export/Field3DFileHDF5.h:Field3DOutputFileHDF5::writeScalarLayer","export/Field3DFileHDF5.h:Field3DOutputFileHDF5::writeVectorLayer"])
p("Layers converted when they are read",
  "readScalarLayersAs and readVectorLayersAs of an HDF5 file give, for dense and for sparse fields, one field of the class asked for per layer, in the order of the layers: with the name, attribute, metadata, extents, data window and every voxel of the layer, and with a mapping that puts every point of voxel space in the same place at every time. A layer that already has the class is the same object. So for a whole file written by the library, with any dense and sparse fields, mappings and metadata, the call for a partition and layer name gives exactly the fields written there, converted. But a single layer with an empty data window makes the call for dense fields throw; conversion to sparse fields allocates every block, also where all voxels are zero; and conversion to MAC fields gives fields that are zero everywhere.",
  "all fields of all classes, every sequence of calls that writes the file, every visiting order of the library",
  "unbounded sizes, numbers of layers and histories of calls",
  ["export/Field3DFileHDF5.h:Field3DInputFileHDF5::readScalarLayersAs","export/Field3DFileHDF5.h:Field3DInputFileHDF5::readVectorLayersAs","export/DenseField.h:DenseField::copyFrom","export/SparseField.h:SparseField::copyFrom","export/Field.h:ResizableField::copyFrom","export/MACField.h:MACField"])
p("Ogawa archives with shared and changed parts",
  "At any time of any history of calls on an Ogawa archive that is being written (adding groups, making data in one piece or in parts, putting data and groups, frozen or not, into any groups any number of times, adding empty children, freezing groups in any order, replacing data children, rewriting bytes of data, closing), a reader that opens the file sees exactly what the calls describe, at every depth and in both reading modes: every place shows the bytes last written and the child last put there; a group that is not frozen is seen as empty and, from the moment it is frozen, with its children in every place it is in, whether the groups around it were frozen before or after. The questions of the writer about children agree with this. Data given in parts are data given in one piece. But rewriting checks offset and size with a sum that wraps around 64 bits, so a huge offset is accepted and overwrites the length in front of the data; and making data with no bytes adds an empty child to the group although the data were not added.",
  "every sequence of calls on any groups and data, with files below 2^63 bytes, data not empty and offset and size of a rewrite below 2^64",
  "unbounded histories, numbers of groups, data and places, and depth; freezing in any order",
  ["src/OGroup.cpp:OGroup::addGroup","src/OGroup.cpp:OGroup::createData","src/OGroup.cpp:OGroup::addData","src/OGroup.cpp:OGroup::freeze","src/OGroup.cpp:OGroup::replaceData","src/OGroup.cpp:OGroup::isChildEmptyGroup","src/OData.cpp:OData::rewrite","src/IArchive.cpp:IArchive::init","src/IGroup.cpp:IGroup::getGroup","src/IData.cpp:IData::read"])
p("Statistics of the block cache",
  "After any history of reads by any number of threads, evictions, flushes, changes of the limit, destructions of fields and resets of the statistics: the number of loaded blocks is the number of blocks whose voxels are in memory; the number of blocks ever loaded is the number of those in memory or loaded since the last reset; the number of loads is the sum over the blocks of how often each came into memory since the last reset or the destruction of its field and, while no field is destroyed, the number of steps since the last reset that brought a block into memory. The three ratios are those of these numbers, and the fraction loaded lies between 0 and 1. Without a reset the efficiency is at most 1, and is 1 exactly if no block was loaded twice; without a limit and flushes no block is loaded twice. But after a reset with blocks in memory the efficiency exceeds 1 with no load at all, and destroying a field takes its loads out of the total.",
  "every history of calls and every schedule of any number of threads, any numbers of fields and blocks",
  "unbounded histories and schedules; counters against what happened",
  ["src/SparseFile.cpp:SparseFileManager::totalLoads","src/SparseFile.cpp:SparseFileManager::numLoadedBlocks","src/SparseFile.cpp:SparseFileManager::totalLoadedBlocks","src/SparseFile.cpp:SparseFileManager::cacheFractionLoaded","src/SparseFile.cpp:SparseFileManager::cacheLoadsPerBlock","src/SparseFile.cpp:SparseFileManager::cacheEfficiency","src/SparseFile.cpp:SparseFileManager::resetCacheStatistics","export/SparseFile.h:Reference::totalLoadedBlocks","export/SparseFile.h:SparseFileManager::activateBlock","export/SparseFile.h:SparseFileManager::removeFieldFromCache"])
p("Field groups over a history of calls",
  "After any history of calls that set the transform, the value operator or the test against world bounds, set fields up, load layers or make minima and maxima: the group has exactly the fields given to it that it has lists for, in the order of giving, each with the transform and operator that were set when it was given (none for the identity) and with the test against bounds if it was on then or switched on later. The size is their number, the MIP size that of the MIP fields among them. Loading from a file that cannot be opened returns -1 and changes nothing; otherwise it adds the layers of the name from all partitions and returns how many were added. The group says that it has minima and maxima exactly if MIP fields of both were given, loaded or made. While it does not, its range of values bounds every voxel looked at of every field, if all meet the bounds, and its ends are such values. But the list of fields is only what the last setup or load was given; once there are minima and maxima, fields added without them do not count for the range; and the test against bounds cannot be switched off for fields that are there.",
  "every history of calls, all fields, voxel types, transforms, operators, files and bounds",
  "unbounded histories; what is set applies to fields given later, in part also to earlier ones",
  ["export/FieldGroup.h:FieldGroup::setup","export/FieldGroup.h:FieldGroup::setupMinMax","export/FieldGroup.h:FieldGroup::load","export/FieldGroup.h:FieldGroup::makeMinMax","export/FieldGroup.h:FieldGroup::setWsBoundsOptimization","export/FieldGroup.h:FieldGroup::size","export/FieldGroup.h:FieldGroup::sizeMIP","export/FieldGroup.h:FieldGroup::fields","export/FieldGroup.h:FieldGroup::hasPrefiltMinMax","export/FieldGroup.h:FieldGroup::getMinMax"])
p("Copying, assigning and filling MIP fields",
  "In every program with any number of MIP fields, fields and pointers: a copy of a MIP field answers every question as the original did (the voxels of all levels, which levels are in memory, resolutions, numbers of levels and voxels; levels not in memory are loaded by each on its own), and making it changes nothing in other MIP fields. Whatever is then done to the original, to its levels or to fields it was made from does not change what the copy shows, and nothing done to the copy changes what the others show. Reading changes nothing that can be read. A MIP field set up from fields shows their voxels, one set up for loading on demand shows what its actions load and has nothing in memory; a level taken out is the level itself. After an assignment a level shows what it shows in the source, except if it is not in memory in the source and was in memory in the target: then the target still shows its own old level. A MIP field can be copied after it was set up, cleared or assigned to; before, it says that it has one level, but reading, copying and assigning it are undefined.",
  "every history of calls, all fields, files, failing loads and levels",
  "unbounded histories with shared fields and pointers; the wrong case of assignment needs a mix of levels in memory and on disk",
  ["export/MIPField.h:MIPField::init","export/MIPField.h:MIPField::operator=","export/MIPField.h:MIPField::clear","export/MIPField.h:MIPField::setup","export/MIPField.h:MIPField::setupLazyLoad","export/MIPField.h:MIPField::loadLevelFromDisk","export/MIPField.h:MIPField::concreteMipLevel","export/MIPField.h:MIPField::fastMipValue","export/MIPField.h:MIPField::voxelCount","export/MIPField.h:MIPField::levelLoaded"])
p("Small steps of the sample point",
  "With the linear interpolators of dense, sparse and MAC fields a step of the sample point, anywhere and of any length, also across voxels, blocks and the border of the window, changes the sample by at most the length of the step along the axes times the largest difference of neighbouring values. With the cubic interpolator a step along x changes it by at most a constant times the largest magnitude times the step, if the window does not start after 0; but it jumps along z: there is a field of sixteen voxels and a point at which the sample is 1/2 while it is 1/16 at all points right after it.",
  "all windows, values and pairs of sample points",
  "all pairs of points, however near",
  ["export/FieldInterp.h:LinearFieldInterp::sample","export/FieldInterp.h:LinearGenericFieldInterp::sample","export/SparseField.h:LinearSparseFieldInterp::sample","export/FieldInterp.h:LinearMACFieldInterp::sample","export/FieldInterp.h:CubicFieldInterp::sample","export/FieldInterp.h:monotonicCubicInterpolant"])
p("Messages and memory figures",
  "After any calls the console shows exactly the messages printed while the last verbosity set was at least one (one at the start), in order, with warnings marked. The text for a number of bytes has its sign, the largest unit that fits, and states the number up to half a unit of the third decimal and one part in 2^24; a larger number is never stated as a smaller one; below 1024 it is exact; the least 64 bit number is undefined, and a byte below a gigabyte is shown as 1024.000 MB. The resident memory reported is that of the kernel if the name of the process has no white space; with a space in it the size of the virtual memory, in bytes, is taken as a number of pages.",
  "all histories of messages and levels, all 64 bit numbers and pairs of them, all process names and figures",
  "the numbers and names cannot be enumerated",
  ["src/Log.cpp:print","src/Log.cpp:setVerbosity","src/Log.cpp:bytesToString","src/Log.cpp:currentRSS"])
p("Merging files",
  "The program f3dmerge, given any number of Ogawa files that can be read, ends with a file that has, for each input file in turn, a copy of every layer of one of the six voxel types that the name and attribute patterns pick (and that has a partition name), of each exactly one, with its names, contents and a mapping read back from one identical to its own, and nothing else; layers with the same names, from the same or different files, are all kept. The merged file lists exactly their partitions and layers. Reading it by name, with any voxel type, gives the contents of exactly the wanted layers of that type and those names, provided what a class saves is read back. The metadata of the files is lost, and a file that cannot be opened ends the program.",
  "all numbers and contents of input files, all layers, names, mappings and patterns",
  "any number of files with any layers and any clashes of names",
  ["apps/f3dmerge/main.cpp:main","apps/f3dmerge/main.cpp:writeOutput","apps/f3dmerge/main.cpp:writeField","src/PatternMatch.cpp:match","src/Field3DFile.cpp:Field3DInputFile::readLayers","src/Field3DFile.cpp:Field3DOutputFile::writeLayer"])
p("Making MIP fields for files",
  "The program f3dmakemip, given any number of Ogawa files that can be read and whose fields can be filtered, ends with a file that has, for each input file in turn and each layer of one of the six voxel types that the patterns pick exactly once, a MIP field with the same names and, if asked for, its lower and upper bounds with _min and _max added to the attribute, and nothing else; fields of other classes are left out. Layers that already end in _min or _max get bounds of their own, although the program says it skips them. A single layer with padding, for which the library makes no MIP field, makes it use a null pointer; a file that cannot be opened ends the program.",
  "all numbers and contents of input files, all layers, names, mappings, classes and patterns, all results of the filtering",
  "any number of files with any layers and any clashes of names",
  ["apps/f3dmakemip/main.cpp:main","apps/f3dmakemip/main.cpp:makeMIP","apps/f3dmakemip/main.cpp:writeField","export/MIPUtil.h:makeMIP","export/MinMaxUtil.h:makeMinMax"])
p("Parameters of procedural fields",
  "After any history of changes of its metadata, an integer parameter of a procedural field, read as a value of the type of the voxels, is the last one set under the name, or else the default without its fraction, converted to the type: exactly for double, up to 2^24 exactly and else to one part in 2^24 for float, up to 2048 exactly and else to one part in 2^11 for half, infinite from 65520 on; vectors by components. A default outside of the range of int is undefined even if the parameter is set. A float parameter is the last float set under the name, converted to the type of the voxels, or else the default, which comes back as it is for half and float but not always for double.",
  "all histories of metadata changes, names, defaults and values, all six voxel types",
  "all values and histories",
  ["export/ProceduralField.h:typedIntMetadata","export/ProceduralField.h:typedFloatMetadata","src/FieldMetadata.cpp:intMetadata","src/FieldMetadata.cpp:vecIntMetadata"])
p("Iterators over fields read on demand pin the block they are in",
  "After any history of making, advancing, dereferencing and destroying const iterators over a sparse field that is read on demand, with any number of iterators at once, the reference count of each block in the file is what it was plus the number of iterators now in the block: the block of a living iterator cannot be evicted, and no pin stays behind when the iterators are gone. This does not extend to copies of iterators: destroying a copy removes the pin of the original.",
  "all reachable fields, all histories of calls on any number of iterators, all sub-windows, all blocks",
  "all interleavings of iterators, blocks with and without data, windows that end inside a block",
  ["export/SparseField.h:SparseField::const_iterator","export/SparseFile.h:SparseFileManager::incBlockRef","export/SparseFile.h:SparseFileManager::decBlockRef"])
p("Interpolating a vector field is interpolating its components",
  "Each component of a linear or cubic sample of a field of vectors is the sample of the field of that component, so linear samples are defined everywhere, exact at voxel centers and between the values of near voxels by components, and cubic samples are defined and exact at centers with non-negative coordinates. Applying a linear map to all vectors of a field applies it to its linear samples. This does not hold of cubic samples, which depend on the coordinates in which vectors are stored.",
  "all vector fields, data windows, sample points, components and linear maps",
  "all values and positions; components that are equal at neighbouring voxels are treated apart",
  ["export/FieldInterp.h:LinearFieldInterp::sample","export/FieldInterp.h:CubicFieldInterp::sample","export/FieldInterp.h:monotonicCubicInterpolantVec"])
p("Dynamically loaded fields of different types do not get in each other's way",
  "A dynamically loaded field gets a number among the fields of its voxel type and is found by type and number whatever fields of any types are opened later; two fields of one type have different numbers; counts, totals and memory figures are those of all fields. Loading or freeing a block of a field changes no block of any other field, also not of a field of another type with the same number; memory in use is that of the blocks in memory, each counted once with the size for its field; flushing always ends, with no block in memory and no memory in use; destroying a field takes its blocks and those of no other field.",
  "all sequences of opening fields of the six types, loading and freeing blocks at any place of the list, flushing and destroying fields",
  "numbers of different types coincide and the type of a block is looked up at run time; all interleavings of types and numbers cannot be tried",
  ["export/SparseFile.h:FileReferences","export/SparseFile.h:SparseFileManager::activateBlock","export/SparseFile.h:SparseFileManager::removeFieldFromCache","src/SparseFile.cpp:SparseFileManager::flushCache","src/SparseFile.cpp:SparseFileManager::deallocateBlocks"])
p("The figures of memory use follow what is allocated",
  "After any operations on a sparse field its memory figure is the size of the object, plus one entry per block over the window, plus the voxels that the voxel count counts. A write adds the voxels of one block if the block of the voxel had none and nothing otherwise; releasing blocks takes off exactly the voxels of the blocks it says it freed; clearing leaves no voxels in the figure. The figure of a dense field has room for every voxel of its window, that of a MAC field for every face of every window it ever had. The figures of a MIP field are the sums over the levels in memory, so that loading a level adds the figure of the level.",
  "all windows, block orders up to 10, voxel types and sizes of the C++ objects, and all sequences of operations on the field; all sets of loaded levels",
  "the figures depend on the history of writes and releases and on sizes of the compiler; a test fixes both",
  ["export/SparseField.h:SparseField::memSize","export/SparseField.h:SparseField::voxelCount","export/DenseField.h:DenseField::memSize","export/MACField.h:MACField::memSize","export/EmptyField.h:EmptyField::memSize","export/MIPField.h:MIPField::memSize","export/MIPField.h:MIPField::voxelCount"])
p("The program that lists files lists every layer once",
  "f3dinfo prints, for each of its files in turn, the name of the file, one entry for every layer whose partition matches one of the name patterns and whose layer name matches one of the attribute patterns (no patterns match everything), and the metadata of the file, and nothing else. Entries have the type, names and contents of the layers; layers with the same names or of different types have entries of their own. A file that cannot be opened ends the program with code 1: the files before it are listed, the ones after it are not.",
  "all lists of Ogawa files, each written by any sequence of calls, all lists of patterns and all regular expressions",
  "the numbers of files, layers, equal names and patterns have no bound",
  ["apps/f3dinfo/main.cpp:main","apps/f3dinfo/main.cpp:printFileInfo","apps/f3dinfo/main.cpp:matchString"])
p("The program that makes sample files stores the field that was asked for",
  "f3dsample makes a field whose numbers have the bits asked for (any number of bits but 64 and 32 gives 16), of the class asked for (a class it does not know, and a MAC field of scalars, give a dense field); the kind of filling asked for changes nothing. If the file can be made and the names can be stored, the file opens, lists exactly that name and attribute, and reading them gives exactly one field, with the mapping and contents that were made, and the metadata of the file is the five entries the program sets. If the file cannot be made the program does not notice, and its behaviour is undefined.",
  "all options, all contents, all mappings and all names without NUL and '/'",
  "names, classes, bits and contents have no bound",
  ["apps/f3dsample/main.cpp:createField","apps/f3dsample/main.cpp:createConcreteScalarField","apps/f3dsample/main.cpp:createConcreteVectorField","apps/f3dsample/main.cpp:writeGlobalMetadata"])
with open('/verif/properties.jsonl','w') as f:
    for x in P: f.write(json.dumps(x)+"\n")
print(len(P))
