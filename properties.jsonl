{"id": "C01", "title": "Dense fields are a faithful voxel map", "statement": "A DenseField of any size behaves like a map from the voxels of its data window to values: after any sequence of voxel writes and clears, value(i,j,k) is the last value written to that voxel, or the last clear value if no write came later. No write to one voxel changes another, and no access to a voxel of the data window leaves the field's buffer.", "quantifier": "every data window that is non-empty in each dimension (any origin), every finite history of clear/lvalue writes inside the window, every voxel", "why_tests_cant": "windows, origins and write histories are unbounded; aliasing between two particular voxels shows only for specific size/origin pairs", "anchors": ["export/DenseField.h:DenseField::fastValue", "export/DenseField.h:DenseField::fastLValue", "export/DenseField.h:DenseField::clear", "export/DenseField.h:DenseField::sizeChanged"]}
{"id": "C02", "title": "Sparse fields are a faithful voxel map", "statement": "A SparseField of any size and block order behaves like a map from voxels to values under any history of voxel writes, clears, changes of the empty value of unallocated blocks and releases of uniform blocks: value(i,j,k) always equals the value of the abstract map, whether the block of the voxel is allocated or not.", "quantifier": "every non-empty data window, every block order, every finite history of clear/write/setBlockEmptyValue/releaseBlocks operations, every voxel", "why_tests_cant": "block-boundary and allocation-state combinations grow with the history; an aliasing or lost-write bug needs a specific combination", "anchors": ["export/SparseField.h:SparseField::fastValue", "export/SparseField.h:SparseField::fastLValue", "export/SparseField.h:SparseField::clear", "export/SparseField.h:SparseField::setBlockEmptyValue", "export/SparseField.h:SparseField::releaseBlocks"]}
{"id": "C03", "title": "Sparse block addressing never leaves the block table or the block", "statement": "For every voxel of the data window, the block coordinate, block id and in-block offset computed by a SparseField are inside the block table and inside the block, two different voxels never share the same (block, offset) pair, and the block table has exactly the number of blocks needed to cover the window.", "quantifier": "every non-empty data window, every block order, every pair of voxels", "why_tests_cant": "off-by-one errors in the block count only show for sizes not multiple of the block size, or for particular origins", "anchors": ["export/SparseField.h:SparseField::blockId", "export/SparseField.h:SparseField::getBlockCoord", "export/SparseField.h:SparseField::getVoxelInBlock", "export/SparseField.h:SparseField::setupBlocks"]}
{"id": "C04", "title": "Releasing blocks never changes a voxel value", "statement": "releaseBlocks with the all-equal check frees only blocks whose voxels inside the data window all hold one value, keeps value(i,j,k) the same for every voxel, returns the number of blocks it freed, and never allocates.", "quantifier": "every field state reachable by writes, every voxel of the window, including partial blocks on the upper edges", "why_tests_cant": "the edge blocks have voxels outside the window whose content must be ignored; only specific sizes/fill patterns expose a mistake", "anchors": ["export/SparseField.h:SparseField::releaseBlocks", "export/SparseField.h:SparseField::deallocBlock", "export/SparseField.h:Sparse::CheckAllEqual"]}
{"id": "C05", "title": "Releasing blocks by threshold touches only blocks above it", "statement": "releaseBlocks with the max-abs check frees exactly the allocated blocks in which no voxel inside the data window has magnitude below the threshold; every voxel of a freed block afterwards reads as the value the block's first voxel had, and no other voxel changes. So a voxel that changes has magnitude at or above the threshold before and after, but its sign can flip.", "quantifier": "every field content, every threshold >= 0, every voxel", "why_tests_cant": "depends on all values in a block at once, for all thresholds", "anchors": ["export/SparseField.h:Sparse::CheckMaxAbs", "export/SparseField.h:SparseField::releaseBlocks"]}
{"id": "C06", "title": "Sparse allocation is exactly write-driven", "statement": "Reading a SparseField never allocates. A write allocates the block containing the voxel and no other; the voxels of a freshly allocated block other than the written one keep the block's empty value. A clear leaves no allocated block.", "quantifier": "every field state, every voxel read or written, every other block", "why_tests_cant": "quantifies over all other blocks and voxels for every write", "anchors": ["export/SparseField.h:SparseField::fastLValue", "export/SparseField.h:SparseBlock::resize", "export/SparseField.h:SparseField::clear", "export/SparseField.h:SparseField::voxelIsInAllocatedBlock", "export/SparseField.h:SparseField::voxelCount"]}
{"id": "C07", "title": "Copies of a field are equal and independent", "statement": "Copy construction, clone and assignment of a sparse field give a field with the same value at every voxel, the same windows and the same allocation state, and no later voxel write to either one is seen through the other. After assignment (but not after copy construction) the two fields share one mapping object, so resizing one changes the mapping extents of the other.", "quantifier": "every source field state, every later history of writes to either field", "why_tests_cant": "independence ranges over all later histories of both objects", "anchors": ["export/SparseField.h:SparseField::operator=", "export/SparseField.h:SparseField::SparseField(const SparseField&)", "export/SparseField.h:SparseBlock::copy"]}
{"id": "C08", "title": "MAC fields keep their three face grids separate and in range", "statement": "A MACField behaves as three independent voxel maps, one per face direction, each one voxel larger than the data window along its own axis. A write to a u, v or w face is read back exactly, changes no other face of any direction, and value(i,j,k) is the average of the two faces on each side of the voxel in each direction.", "quantifier": "every non-empty data window, every finite history of u/v/w writes and clears, every face", "why_tests_cant": "strides differ between the three grids; a wrong stride aliases only for particular non-cubic sizes", "anchors": ["export/MACField.h:MACField::u", "export/MACField.h:MACField::v", "export/MACField.h:MACField::w", "export/MACField.h:MACField::value", "export/MACField.h:MACField::sizeChanged"]}
{"id": "C09", "title": "Resizing gives exactly the requested windows", "statement": "setSize with a size, with extents, with extents and data window, or with a size and padding sets the extents and data window to what is documented; a dense field throws exactly when the requested data window is empty along some axis, and otherwise every voxel reads as the default value; a sparse field never throws, and after a resize to a non-empty window every voxel reads as zero and no block is allocated, whatever the field held before.", "quantifier": "every size, extents, window and padding", "why_tests_cant": "windows are arbitrary integer boxes", "anchors": ["export/Field.h:ResizableField::setSize", "export/DenseField.h:DenseField::sizeChanged", "export/SparseField.h:SparseField::sizeChanged"]}
{"id": "C10", "title": "Voxel iteration visits each voxel exactly once", "statement": "Iterating a field from begin to end over any sub-box that is non-empty along every axis visits every voxel of the box exactly once, in x-fastest then y then z order, and terminates after exactly as many steps as the box has voxels. If the box is empty along some axes only, the generic iterators do not produce the empty sequence.", "quantifier": "every box non-empty along each axis (any origin), every step of the traversal", "why_tests_cant": "boxes are unbounded; termination and exactly-once are properties of the whole traversal", "anchors": ["export/Field.h:Field::const_iterator::operator++", "export/Field.h:Field::cbegin", "export/Field.h:Field::cend", "export/Field.h:WritableField::iterator"]}
{"id": "C11", "title": "Dense iterators point at the voxel they report", "statement": "At every step of a DenseField traversal over any sub-box of the data window, the value the iterator dereferences is the value of the voxel whose coordinates it reports, so a traversal sees the same values as value(i,j,k).", "quantifier": "every data window, every non-empty sub-box of it, every step", "why_tests_cant": "the pointer jumps at row and slice ends depend on both the window and the sub-box", "anchors": ["export/DenseField.h:DenseField::const_iterator", "export/DenseField.h:DenseField::cbegin"]}
{"id": "C12", "title": "Sparse iterators point at the voxel they report", "statement": "At every step of a SparseField traversal over any non-empty sub-box of the data window of an in-memory field, the value the iterator dereferences is the value of the voxel whose coordinates it reports. For a file-backed (dynamic-load) field this holds when the data window starts at a multiple of the block size, and fails for some other windows.", "quantifier": "every data window, block order, allocation state and non-empty sub-box, every step", "why_tests_cant": "the cached block pointer must be refreshed at exactly the right steps; depends on alignment of window, sub-box and blocks", "anchors": ["export/SparseField.h:SparseField::const_iterator", "export/SparseField.h:SparseField::cbegin"]}
{"id": "C13", "title": "MAC component iterators visit each face exactly once", "statement": "Iterating one component of a MACField visits each face of that component exactly once, in order, and dereferences the face whose coordinates it reports.", "quantifier": "every non-empty data window, every component", "why_tests_cant": "whole-traversal property with per-component extents", "anchors": ["export/MACField.h:MACField::const_mac_comp_iterator", "export/MACField.h:MACField::cbegin_comp"]}
{"id": "C14", "title": "Block iteration visits each block exactly once", "statement": "Iterating the blocks of a SparseField visits every block of the block table exactly once and terminates. The bounding box reported for a block contains exactly the voxels stored in that block when the data window starts at the origin; for other data windows the reported box is wrong.", "quantifier": "every data window and block order, every block", "why_tests_cant": "whole-traversal property over unbounded sizes", "anchors": ["export/SparseField.h:SparseField::block_iterator"]}
{"id": "C15", "title": "Grains partition the data window", "statement": "For dense and sparse fields, the boxes reported by getGrainBounds for indices 0..numGrains-1 cover every voxel of the data window exactly once and contain no voxel outside it, so processing all grains touches every voxel exactly once.", "quantifier": "every data window non-empty along each axis, every block order, every voxel", "why_tests_cant": "edge grains must be clipped; only some sizes have partial grains", "anchors": ["export/DenseField.h:DenseField::getGrainBounds", "export/SparseField.h:SparseField::getGrainBounds", "export/SparseField.h:SparseField::numGrains"]}
{"id": "C16", "title": "Linear index to coordinate conversion is a bijection", "statement": "indexToCoord maps 0..n-1 one-to-one onto the voxels of a grid of n = rx*ry*rz voxels in x-fastest order; stepping a coordinate with advance follows the same order.", "quantifier": "every resolution with positive components, every index", "why_tests_cant": "unbounded index range", "anchors": ["export/Field.h:indexToCoord", "export/Field.h:advance"]}
{"id": "C17", "title": "Discrete and continuous voxel coordinates agree", "statement": "contToDisc(discToCont(i)) = i for every voxel, contToDisc sends every point of a voxel's cell to that voxel also for negative coordinates, and every point of a continuous box lies in a voxel of its discrete bounds if the lower corner of the box has no negative fractional coordinate (with such a corner, voxels are missed); the continuous bounds of a voxel box are exactly the union of its cells for coordinates up to 2^24, and the discrete bounds of the continuous bounds of a voxel box is that box extended by one voxel on the upper side of each axis; clipBounds of two boxes contains exactly the voxels in both.", "quantifier": "every integer coordinate, every real coordinate, every pair of boxes", "why_tests_cant": "continuous domain, negative coordinates", "anchors": ["export/Field.h:contToDisc", "export/Field.h:discToCont", "export/Field.h:discreteBounds", "export/Field.h:continuousBounds", "export/Field.h:clipBounds"]}
{"id": "C18", "title": "Linear interpolation is a clamped convex combination", "statement": "Sampling a field with the linear interpolator at any point never reads a voxel outside the data window, returns the voxel's own value at every voxel center, always lies between the smallest and largest of the voxels it reads, and reproduces any affine function exactly at points at least half a voxel inside the window.", "quantifier": "every non-empty data window, every real sample point, every field content (exact arithmetic)", "why_tests_cant": "continuous sample domain and arbitrary contents", "anchors": ["export/FieldInterp.h:LinearFieldInterp::sample", "export/FieldInterp.h:LinearGenericFieldInterp::sample"]}
{"id": "C19", "title": "The sparse interpolation fast path equals the generic one", "statement": "Sampling a SparseField with its specialised linear interpolator gives exactly the same value as the generic linear interpolator at every point, whether the eight voxels lie inside one allocated block, inside one unallocated block or across blocks.", "quantifier": "every data window, block order, allocation state, contents and sample point", "why_tests_cant": "the fast path is taken only for particular alignments; equality must hold for all of them", "anchors": ["export/SparseField.h:LinearSparseFieldInterp::sample", "export/FieldInterp.h:LinearFieldInterp::sample"]}
{"id": "C20", "title": "MAC interpolation is exact on faces and in range", "statement": "Sampling a MACField with the linear MAC interpolator never reads a face outside the field, returns the stored face value at each face center, and each component lies between the smallest and largest face values it reads; sampling one component gives the same number as that component of the vector sample.", "quantifier": "every non-empty data window, every sample point, every content (exact arithmetic)", "why_tests_cant": "continuous domain, three staggered grids", "anchors": ["export/FieldInterp.h:LinearMACFieldInterp::sample"]}
{"id": "C21", "title": "Cubic interpolation is exact at voxel centers but not monotone", "statement": "Sampling with the cubic interpolator reads only voxels of the data window and returns the voxel's own value at each voxel center when the data window starts at zero or above, and returns a constant for a constant field. It is not a bounded interpolant: there are samples outside the range of all voxels read; and for windows starting below zero it does not return voxel values at their centers.", "quantifier": "every data window, every sample point, every content (exact arithmetic)", "why_tests_cant": "continuous domain; overshoot depends on the values", "anchors": ["export/FieldInterp.h:CubicFieldInterp::sample", "export/FieldInterp.h:monotonicCubicInterpolant"]}
{"id": "C22", "title": "MIP level selection brackets the requested size", "statement": "For any ascending list of level voxel sizes and any spot size, the MIP linear interpolator picks level 0 at or below the finest size, the coarsest level above the coarsest size, and otherwise two adjacent levels whose sizes bracket the spot size with a weight in [0,1]; the blended sample lies between the two level samples and is continuous across level sizes.", "quantifier": "every number of levels, every spot size", "why_tests_cant": "continuous spot size and unbounded number of levels", "anchors": ["export/MIPInterp.h:MIPLinearInterp::interpInfo", "export/MIPInterp.h:MIPLinearInterp::sample"]}
{"id": "C23", "title": "MIP coordinates line up across levels", "statement": "The coordinate used for MIP level l is the identity for level 0; for any offset and level, level-0 voxel cells map inside the coarse cell that contains them (the coarse voxel with absolute index floor(abs/2^l)), and stepping through levels one at a time gives the same coordinate.", "quantifier": "every integer offset (also negative), every level, every point", "why_tests_cant": "unbounded levels and offsets, negative shifts", "anchors": ["export/MIPField.h:MIPField::getVsMIPCoord"]}
{"id": "C24", "title": "Cached reads return the file's data for any history", "statement": "With a dynamically loaded sparse field, every voxel read returns the value stored in the file, for any memory limit, any sequence of reads of any blocks of any number of fields, evictions, explicit cache flushes between reads and limit changes.", "quantifier": "every file content, every history of read/flush/limit operations, every memory limit that allows progress", "why_tests_cant": "the result depends on the cache state left by the entire history", "anchors": ["export/SparseFile.h:SparseFileManager::activateBlock", "src/SparseFile.cpp:SparseFileManager::deallocateBlocks", "export/SparseField.h:SparseField::fastValue", "src/SparseFile.cpp:SparseFileManager::flushCache"]}
{"id": "C25", "title": "The cache stays within its memory limit", "statement": "With memory limiting on and one thread reading, the memory accounted for loaded blocks never exceeds the limit, or the size of the one block being used when that alone is larger than the limit; the accounted amount always equals the total size of the blocks actually loaded.", "quantifier": "every history of block activations over blocks of any sizes, every limit", "why_tests_cant": "history-dependent accounting", "anchors": ["src/SparseFile.cpp:SparseFileManager::deallocateBlocks", "export/SparseFile.h:SparseFileManager::activateBlock", "src/SparseFile.cpp:SparseFileManager::deallocateBlock"]}
{"id": "C26", "title": "The cache list and the loaded flags agree", "statement": "At every moment the list of cached blocks has no duplicates and contains exactly the blocks that are marked loaded and hold data, for any history of loads, evictions, flushes and field removals.", "quantifier": "every history of cache operations", "why_tests_cant": "inductive invariant over unbounded histories", "anchors": ["src/SparseFile.cpp:SparseFileManager::addBlockToCache", "src/SparseFile.cpp:SparseFileManager::flushCache", "export/SparseFile.h:SparseFileManager::removeFieldFromCache"]}
{"id": "C27", "title": "Pinned blocks survive eviction", "statement": "A block whose reference count is raised is not unloaded by eviction, whatever other threads load; so a reader that pins, activates, reads and unpins always reads loaded data of its block. An explicit flush does not honour pins: a flush between a reader's activation and its read leaves it with an unloaded block.", "quantifier": "every number of threads, every interleaving of their steps, every memory limit", "why_tests_cant": "ranges over all schedules", "anchors": ["src/SparseFile.cpp:SparseFileManager::deallocateBlock", "export/SparseFile.h:SparseFileManager::activateBlock", "export/SparseFile.h:SparseFileManager::incBlockRef", "src/SparseFile.cpp:SparseFileManager::flushCache"]}
{"id": "C28", "title": "Eviction terminates when something is evictable", "statement": "The eviction loop terminates for every cache state in which no block is pinned (after at most two sweeps), leaving either enough free memory or an empty cache. If every cached block is pinned and memory is short, the loop never terminates.", "quantifier": "every cache state, every requested size", "why_tests_cant": "termination for all states; nontermination cannot be observed by a finite test", "anchors": ["src/SparseFile.cpp:SparseFileManager::deallocateBlocks"]}
{"id": "C29", "title": "Eviction gives recently used blocks a second chance", "statement": "A block used since the eviction hand last passed it is not evicted while the hand first passes it: during one eviction call an unused, unpinned block ahead of it on the hand's path is evicted first, and a used block is only evicted after its used flag was cleared in an earlier pass.", "quantifier": "every cache list, flags and hand position", "why_tests_cant": "depends on the whole cache state and hand movement", "anchors": ["src/SparseFile.cpp:SparseFileManager::deallocateBlock", "src/SparseFile.cpp:SparseFileManager::deallocateBlocks"]}
{"id": "C30", "title": "Ogawa archives round-trip any tree", "statement": "Any tree of groups and non-empty data blobs written through the Ogawa writer and closed is read back by the Ogawa reader as the same tree: same children in the same order, same kinds, same bytes, also for empty groups.", "quantifier": "every finite tree, every byte content, every depth", "why_tests_cant": "unbounded recursive structures and byte offsets", "anchors": ["src/OGroup.cpp:OGroup::freeze", "src/OGroup.cpp:OGroup::createData", "src/OArchive.cpp", "src/IGroup.cpp:IGroup::getGroup", "src/IData.cpp:IData::read"]}
{"id": "C31", "title": "A crash while writing an Ogawa archive never shows a half-written tree", "statement": "If the writing process stops after any prefix of its file writes, opening the result yields either an invalid archive, an archive with an empty root, or the complete tree; and the archive is flagged as properly closed only if everything was written.", "quantifier": "every tree, every crash point between writes (in-order writes)", "why_tests_cant": "ranges over every crash point of every archive", "anchors": ["src/OStream.cpp:OStream", "src/OGroup.cpp:OGroup::freeze", "src/IArchive.cpp", "src/IStreams.cpp:IStreams::init"]}
{"id": "C32", "title": "Reading Ogawa data stays inside the data block", "statement": "Reading from an Ogawa data block with an offset and size that add up to at most the block size returns exactly those bytes, and any request past the end reads nothing, provided offset+size does not wrap around 64 bits; a wrapping request passes the bounds check.", "quantifier": "every offset and size (64-bit), every file content", "why_tests_cant": "the 64-bit input space, including wrap-around", "anchors": ["src/IData.cpp:IData::read", "src/OData.cpp:OData::rewrite"]}
{"id": "C33", "title": "Adding empty data to a group adds one child", "statement": "Each data item added to an Ogawa group takes exactly one child slot, so the index of later children equals the number of items added before them. This holds for non-empty data and empty groups; for zero-length data the writer adds two slots.", "quantifier": "every sequence of additions to a group", "why_tests_cant": "sequence-dependent index shift", "anchors": ["src/OGroup.cpp:OGroup::createData", "src/OGroup.cpp:OGroup::addData"]}
{"id": "C34", "title": "Light and full group reading agree", "statement": "Reading a group in light mode (children fetched on demand) and in full mode (children table read at open) gives the same children, kinds and data for every group.", "quantifier": "every group size, in particular on both sides of the light-mode threshold", "why_tests_cant": "two code paths must agree for all group sizes and contents", "anchors": ["src/IGroup.cpp:IGroup::init", "src/IGroup.cpp:IGroup::getGroup", "src/IGroup.cpp:IGroup::getData"]}
{"id": "C35", "title": "Named lookup finds the first child of the right kind", "statement": "Looking up a group, attribute or dataset by name in an F3D group returns the first child of that kind with that name and nothing else; a path with '/' resolves one component at a time; names listed for a kind are exactly the names for which lookup succeeds.", "quantifier": "every group contents, every name and path", "why_tests_cant": "unbounded contents and paths, duplicates of names and kinds", "anchors": ["src/OgIGroup.cpp:OgIGroup::findGroup", "src/OgIGroup.cpp:OgIGroup::recursiveFindGroup", "src/OgIGroup.cpp:OgIGroup::groupNames", "include/OgIGroup.h:OgIGroup::findAttribute"]}
{"id": "C36", "title": "Attributes round-trip with their type", "statement": "An attribute written with a name, type and value is read back with the same value when asked for with the same type, and is reported as absent when asked for with another type; string values come back up to their first NUL character.", "quantifier": "every name without '/', every type and value", "why_tests_cant": "all strings and types, embedded NULs", "anchors": ["include/OgOAttribute.h:OgOAttribute", "include/OgIAttribute.h:OgIAttribute", "src/OgUtil.cpp:readString"]}
{"id": "C37", "title": "Dense fields round-trip through a file", "statement": "Writing a DenseField to an Ogawa file and reading it back gives a field with the same extents, data window and the same value at every voxel.", "quantifier": "every size, origin, extents and content", "why_tests_cant": "unbounded sizes and contents", "anchors": ["src/DenseFieldIO.cpp:DenseFieldIO::writeInternal", "src/DenseFieldIO.cpp:DenseFieldIO::readData"]}
{"id": "C38", "title": "Sparse fields round-trip through a file", "statement": "Writing a SparseField to an Ogawa file and reading it back gives a field with the same windows, block order, allocation state, empty values and the same value at every voxel, for fields with any mix of allocated and unallocated blocks.", "quantifier": "every size, block order, allocation pattern and content", "why_tests_cant": "the mapping between block numbers and stored datasets depends on the allocation pattern", "anchors": ["src/SparseFieldIO.cpp:SparseFieldIO::writeInternal", "src/SparseFieldIO.cpp:SparseFieldIO::readData", "include/OgSparseDataReader.h"]}
{"id": "C39", "title": "Threaded block reading is schedule-independent", "statement": "Reading the blocks of a sparse field with any number of threads fills every allocated block exactly once with its own data from the file, for every interleaving of the threads.", "quantifier": "every number of threads, every schedule, every allocation pattern", "why_tests_cant": "schedules", "anchors": ["src/SparseFieldIO.cpp:ReadBlockOp", "src/SparseFieldIO.cpp:ThreadingState"]}
{"id": "C40", "title": "Threaded block writing keeps file order", "statement": "Writing the blocks of a sparse field with one thread writes every allocated block once and in block order. With two threads there is a schedule on a field with an unallocated block between allocated ones in which the shared 'next block' counter skips an allocated block, so that block is never written and the write never returns, and another in which the write returns with two blocks in the wrong order; in every schedule each allocated block is written at most once; with the counter update made atomic, or with every block allocated, every schedule writes in order.", "quantifier": "every number of threads, every schedule, every allocation pattern", "why_tests_cant": "schedules; the failing interleaving is a narrow window", "anchors": ["src/SparseFieldIO.cpp:WriteBlockOp", "src/SparseFieldIO.cpp:ThreadingState"]}
{"id": "C41", "title": "Chunked HDF5 block reading covers every block", "statement": "The HDF5 sparse reader, which reads stored blocks in fixed-size passes, gives every allocated block its own data whatever the number of blocks per pass, and never asks for data past the end of the stored array.", "quantifier": "every number of stored blocks, every pass size >= 1, every allocation pattern", "why_tests_cant": "boundary between passes", "anchors": ["src/SparseFieldIO.cpp:SparseFieldIO::readData (HDF5)"]}
{"id": "C42", "title": "MAC fields written to Ogawa files are lost", "statement": "writing a field layer reports success only if the layer can be read back. This fails for MAC fields in Ogawa files: the write reports success and stores no voxel data and the read returns nothing, for every MAC field. It holds for dense and sparse fields.", "quantifier": "every MAC field", "why_tests_cant": "must hold for all field types and contents; the failure is silent", "anchors": ["src/MACFieldIO.cpp:MACFieldIO::write(OgOGroup)", "src/MACFieldIO.cpp:MACFieldIO::read(OgIGroup)", "src/Field3DFile.cpp:Field3DOutputFile::writeLayer"]}
{"id": "C43", "title": "Written layers can be found again by name", "statement": "After any sequence of successful layer writes to one output file, reading by partition name and layer name returns every layer written under those names, once each, in the order of their partitions (those with the same mapping in the order of writing); layers of other names are not returned. Fields with the same partition name but different mappings are stored separately, and those with identical mapping share a partition unless a layer name repeats. Writing succeeds for all names without '/' and all mappings of known classes; a mapping class that cannot be written makes the next write under the name use a null pointer. A layer named 'mapping' is not found again.", "quantifier": "every sequence of writes with any partition names, layer names and mappings", "why_tests_cant": "history-dependent naming, collisions between partition suffixes and user names", "anchors": ["src/Field3DFile.cpp:Field3DOutputFile::writeLayer", "src/Field3DFile.cpp:Field3DFileBase::intPartitionName", "src/Field3DFile.cpp:Field3DInputFile::readLayers", "src/Field3DFile.cpp:Field3DInputFile::readPartitionAndLayerInfo"]}
{"id": "C44", "title": "Listing names reports exactly what was written", "statement": "getPartitionNames returns each user partition name once, sorted, and getScalarLayerNames returns the layer names of a partition once each, for any file just read or written by a fresh file object. Reusing an output file object for a second file makes layer names of reused partition names disappear from the listing.", "quantifier": "every sequence of writes and create/close cycles", "why_tests_cant": "depends on the object's history over several files", "anchors": ["src/Field3DFile.cpp:Field3DFileBase::getPartitionNames", "src/Field3DFile.cpp:Field3DFileBase::getScalarLayerNames", "src/Field3DFile.cpp:Field3DFileBase::removeUniqueId", "src/Field3DFile.cpp:Field3DFileBase::clear"]}
{"id": "C45", "title": "Metadata set is metadata got", "statement": "For each metadata kind, looking up a name returns the last value set under that name and kind, or the given default if none was set; setting a name in one kind does not affect the other kinds or other names.", "quantifier": "every history of set operations, every name and kind", "why_tests_cant": "unbounded histories", "anchors": ["src/FieldMetadata.cpp:FieldMetadata", "export/FieldMetadata.h"]}
{"id": "C46", "title": "Metadata round-trips through a file", "statement": "Metadata whose names are non-empty, unique across kinds and free of '/' is read back from an Ogawa file with the same kinds and values, strings being cut at their first NUL. If two kinds share a name, only the first written survives; a name with '/' is lost; an empty name hides the metadata written after it.", "quantifier": "every finite metadata contents", "why_tests_cant": "arbitrary names and kinds, collisions", "anchors": ["src/Field3DFile.cpp:writeMetadata", "src/Field3DFile.cpp:readMetadata"]}
{"id": "C47", "title": "Mappings round-trip through a file", "statement": "A matrix mapping with any number of time samples is read back from an Ogawa file, and from an HDF5 file in the current or the old format, as an identical mapping; a null mapping comes back as a null mapping and an unknown mapping class as no mapping. If the number of samples, or a time or matrix of a sample, is missing in the file, no mapping is read. Different bits mean different numbers, the two zeros aside. A frustum mapping is written without undefined behaviour if it has no samples or a sample at time 0, and its HDF5 file is read back to the same samples and distribution, and without a stored distribution as perspective; but its Ogawa file is not: the reader ignores the stored sample count and returns the default frustum.", "quantifier": "every list of time samples", "why_tests_cant": "all sample counts and times", "anchors": ["src/FieldMappingIO.cpp:MatrixFieldMappingIO", "src/FieldMappingIO.cpp:FrustumFieldMappingIO::read"]}
{"id": "C48", "title": "The field cache only returns the field for that file and layer", "statement": "A field obtained from the layer cache is a live field that was cached under the same file name and layer path and element type; after the last reference to it is dropped the cache returns nothing. Two different (file, partition, layer) requests never collide when names contain no '/'.", "quantifier": "every history of cacheField/getCachedField/release operations, all names", "why_tests_cant": "history and key-collision dependent", "anchors": ["export/FieldCache.h:FieldCache::getCachedField", "export/FieldCache.h:FieldCache::cacheField"]}
{"id": "C49", "title": "MIP chains cover the base and shrink", "statement": "Building a MIP with zero offset from any base whose windows coincide terminates and yields levels of which each is no larger than the previous along every axis and strictly smaller along at least one (so it is accepted as a MIP field), and the voxels of level l cover the base exactly (l-fold halved, rounded up). With non-zero offset this can fail: there are bases for which the chain is rejected or a level misses base voxels.", "quantifier": "every base resolution, every minimum size, every level", "why_tests_cant": "all resolutions; rounding", "anchors": ["src/MIPUtil.cpp:mipResolution", "export/MIPUtil.h:makeMIP", "export/MIPField.h:MIPField::sanityChecks"]}
{"id": "C50", "title": "MIP filtering reads the right voxels", "statement": "With zero offset, each pass of the box-filtered MIP gives each coarse voxel the average of the (one or two) fine voxels it covers, and the min (max) filtered MIP gives a value at most (at least) every fine voxel it covers.", "quantifier": "every resolution, every content, every coarse voxel", "why_tests_cant": "all resolutions and contents; edges with odd sizes", "anchors": ["export/MIPUtil.h:MIPSeparableThreadOp", "src/Resample.cpp:BoxFilter"]}
{"id": "C51", "title": "Threaded MIP work is done exactly once", "statement": "The worker threads that fill a MIP level take every work block exactly once whatever the interleaving, and their blocks together contain every target voxel exactly once; so for dense targets the result is schedule-independent.", "quantifier": "every number of threads, every schedule, every resolution", "why_tests_cant": "schedules", "anchors": ["export/MIPUtil.h:MIPSeparableThreadOp::operator()", "export/MIPUtil.h:mipSeparable"]}
{"id": "C52", "title": "Skipping empty MIP input is sound for narrow filters", "statement": "When the sparse MIP builder skips a work block because the source blocks of its padded source region are all unallocated with zero as empty value, the skipped voxels would have been zero: for box, triangle, min and max filters at any block size, for the Mitchell filter at blocks of four voxels or more and for the Gaussian filter at blocks of eight voxels or more. With smaller blocks the padding is too small for these two filters: non-zero contributions are dropped.", "quantifier": "every source field, every work block", "why_tests_cant": "depends on filter support vs padding arithmetic for all positions", "anchors": ["export/MIPUtil.h:checkInputEmpty", "export/MIPUtil.h:MIPSeparableThreadOp"]}
{"id": "C53", "title": "Resampling weights are normalised and conservative", "statement": "Resampling a field whose window begins at zero and has more than one voxel along each axis gives a field of the requested resolution without reading any voxel outside the source, for any filter; other fields are refused. The box filter gives each voxel the mean, the min (max) filter the least (greatest) of the source voxels that belong to it; filters without negative weights stay within the range of the source and keep constants; resampling to the same resolution changes nothing for filters that vanish at whole distances.", "quantifier": "every source and target resolution, every content (exact arithmetic)", "why_tests_cant": "all resolution ratios and contents", "anchors": ["export/Resample.h:separable", "src/Resample.cpp:srcSupportBBox"]}
{"id": "C54", "title": "Local and voxel space mappings are inverse", "statement": "For any extents, voxelToLocal and localToVoxel are inverse to each other, map the extents' corner cells to the unit cube, and for a matrix mapping with invertible transform worldToVoxel and voxelToWorld are inverse at every sampled time.", "quantifier": "every extents with positive size, every point, every invertible affine transform (exact arithmetic)", "why_tests_cant": "continuous domain", "anchors": ["src/FieldMapping.cpp:FieldMapping::localToVoxel", "src/FieldMapping.cpp:FieldMapping::voxelToLocal", "src/FieldMapping.cpp:MatrixFieldMapping::updateTransform"]}
{"id": "C55", "title": "World bounds of a voxel box contain the box", "statement": "The world/voxel bounding box computed from the eight transformed corners contains the image of every point of the box, for every affine transform.", "quantifier": "every affine transform, every box, every point in it", "why_tests_cant": "continuous domain; all sign combinations of the transform", "anchors": ["src/FieldMapping.cpp:FieldMapping::worldToVoxel", "export/FieldMapping.h:transformBounds"]}
{"id": "C56", "title": "Animation curves interpolate their samples", "statement": "After any sequence of addSample calls a curve's samples are sorted by strictly increasing time, one per distinct time holding the last value given for it; linear evaluation returns the sample value at each sample time, the first/last value before/after the range, and a value between the two neighbouring samples in between.", "quantifier": "every sequence of additions, every evaluation time", "why_tests_cant": "unbounded insertion orders and continuous time", "anchors": ["export/Curve.h:Curve::addSample", "export/Curve.h:Curve::linear"]}
{"id": "C57", "title": "File sequences expand to consecutive frame names", "statement": "A sequence pattern 'name-START-END#suffix' style expands to exactly the names with each number from START to END in increasing order, patterns without one sequence mark or without range expand to nothing, and an existing file of the literal name is returned alone.", "quantifier": "every base name, suffix, start and end", "why_tests_cant": "unbounded strings and ranges", "anchors": ["src/FileSequence.cpp:FileSequence"]}
{"id": "C58", "title": "Pattern matching: exclusions win", "statement": "A name/attribute pair matches a pattern list exactly when some inclusion pattern matches it and no exclusion pattern does, independent of the order and repetition of the patterns; empty patterns have no effect, and an empty list matches exactly when the empty-pattern flag is given.", "quantifier": "every pattern list, name and attribute, every glob matcher", "why_tests_cant": "all lists and orders", "anchors": ["src/PatternMatch.cpp:match", "src/PatternMatch.cpp:split"]}
{"id": "C59", "title": "The class factory honours the first registration", "statement": "After any sequence of registrations, creating by class name uses the first factory registered under that name, and names never registered create nothing; later registrations never change existing names.", "quantifier": "every registration history", "why_tests_cant": "unbounded histories", "anchors": ["src/ClassFactory.cpp:ClassFactory::registerField", "src/ClassFactory.cpp:ClassFactory::createField"]}
{"id": "C60", "title": "Reference counts delete exactly once", "statement": "For a reference-counted object used by one thread at a time, the object is deleted exactly when the last reference is dropped and never before. With two threads releasing concurrently there is a schedule that deletes it twice, because the decrement and the zero test are separate steps; with a decrement-and-test no schedule does.", "quantifier": "every history of copies and releases, every schedule", "why_tests_cant": "schedules", "anchors": ["export/RefCount.h:RefBase::unref", "export/RefCount.h:intrusive_ptr_release"]}
{"id": "C61", "title": "Multi-point sampling equals point-by-point sampling", "statement": "Sampling many points at once over a list of fields gives for each point the same accumulated value and hit count as sampling it alone, regardless of the number of points; a min/max query over several fields bounds every voxel value of the intersecting ones. The last part fails when a non-intersecting field comes before an intersecting one (all later fields are skipped), for regions with negative coordinates, for half fields after float fields, and it never bounded interpolated values.", "quantifier": "every list of fields, every list of points", "why_tests_cant": "unbounded lists and orders", "anchors": ["export/FieldSampler.h:FieldSampler::sample", "export/FieldSampler.h:FieldSampler::sampleMultiple", "export/FieldSampler.h:FieldSampler::getMinMax"]}
{"id": "C62", "title": "Cell-centered/MAC conversion is consistent", "statement": "Converting a cell-centered vector field to MAC sets each interior face to the average of its two neighbour cells and each boundary face to its single neighbour cell; converting a MAC field to cell-centered gives the average of opposite faces; converting a constant field there and back gives the same constant, also when a rotation about one axis is applied; with rotations about two axes it does not, because the code negates the angles without reversing their order.", "quantifier": "every non-empty data window, every content (exact arithmetic)", "why_tests_cant": "boundary faces for all sizes", "anchors": ["export/MACFieldUtil.h:convertMACToCellCentered", "export/MACFieldUtil.h:convertCellCenteredToMAC"]}
{"id": "C63", "title": "Fitting a coordinate system covers the bounds", "statement": "coordinateSystem(bounds, voxelSize, extents) yields integer extents whose voxels cover the given world bounds; for bounds with negative coordinates the rounding goes the wrong way and the extents can miss part of the bounds. The extents have one voxel too many along each axis, so the voxels of a mapping made from them are smaller than asked for.", "quantifier": "every bounds and voxel size", "why_tests_cant": "continuous inputs, negative coordinates", "anchors": ["export/CoordSys.h:coordinateSystem"]}
{"id": "C64", "title": "Lazy MIP levels load once", "statement": "With any number of threads touching the levels of a lazily loaded MIP field, each level's load action runs until it first gives a field and never again, every access that returns gives that same field and never a null pointer, each failed call makes exactly one access throw, levels nobody asks for are not loaded, and no thread waits forever. But a level becomes visible to other threads before its metadata and mapping are set.", "quantifier": "every number of threads, every schedule", "why_tests_cant": "schedules", "anchors": ["export/MIPField.h:MIPField::loadLevelFromDisk"]}
{"id": "C65", "title": "Sparse field memory is neither leaked nor freed twice", "statement": "In every program that creates, copies, assigns, writes, clears, resizes, releases blocks of and destroys sparse fields, no block table or voxel buffer is used after it was freed, none is freed twice, no two fields or blocks ever own the same buffer, and once all fields are destroyed no block table or voxel buffer is left allocated.", "quantifier": "every finite program over any number of fields", "why_tests_cant": "histories of any length over any number of fields; leaks and double frees depend on the order of copies and destructions", "anchors": ["export/SparseField.h:SparseField::copySparseField", "export/SparseField.h:SparseField::operator=", "export/SparseField.h:SparseField::~SparseField", "export/SparseField.h:SparseField::setupBlocks"]}
{"id": "C66", "title": "Concurrent readers of dynamic fields do not lock each other up", "statement": "When several threads read dynamically loaded fields with memory limiting on, every read can finish: from every reachable state some schedule completes all reads. This holds when the limit has room for one block more than there are threads; with less room there are schedules after which two threads wait for each other for ever, even if the cache is flushed or limiting is switched off.", "quantifier": "every number of threads, every schedule, every history of reads", "why_tests_cant": "schedules of several threads; the lock-up needs a particular interleaving of three of them", "anchors": ["export/SparseFile.h:SparseFileManager::activateBlock", "src/SparseFile.cpp:SparseFileManager::deallocateBlocks"]}
{"id": "C67", "title": "Stored sizes are checked against the field", "statement": "Reading a layer never writes outside the buffers of the field being read. This fails: the dense reader copies the stored bytes without comparing their number to the size of the data window, so a file with longer data overruns the buffer (exactly then), and shorter data is accepted silently.", "quantifier": "every data window, voxel type and stored data", "why_tests_cant": "needs every inconsistent file", "anchors": ["src/DenseFieldIO.cpp:DenseFieldIO::readData(OgIGroup)", "include/OgIDataset.h:OgIDataset::getData"]}
{"id": "C68", "title": "Reported voxel sizes are the distances between voxels", "statement": "The voxel size a mapping reports is the world space distance between neighbouring voxels: for a matrix mapping with affine transforms anywhere in the field, for a frustum mapping (of at least two slices) in the middle of the given slice, with the last slice given the size of the one before it and slices outside of the extents that of the nearest; asking for any slice is defined. A frustum mapping of a single slice reports zero or a size left from earlier extents.", "quantifier": "every extents, history of calls and slice index", "why_tests_cant": "continuous transforms and all extents; the single-slice case depends on history", "anchors": ["src/FieldMapping.cpp:FrustumFieldMapping::computeVoxelSize", "src/FieldMapping.cpp:FrustumFieldMapping::wsVoxelSize", "src/FieldMapping.cpp:MatrixFieldMapping::updateTransform"]}
{"id": "C69", "title": "Ray intersections and bounds of groups of fields", "statement": "Intersecting a ray with a group gives one interval per field hit, in field order. For a field with a matrix mapping it is exactly the set of ray parameters whose world points lie in the extents of the field, and a field without interval has no point in front of the ray's start. For a perspective frustum seen by an ordinary camera and a ray not parallel to its faces the same holds from the start of the ray on. Rays parallel to a face outside it are reported as hits, frustums behind the ray give intervals that end before they start, and mirrored frustums are missed. The world space bounds of a group are the smallest box containing the extents of all of its fields.", "quantifier": "every ray, transform and group of fields", "why_tests_cant": "continuous inputs; every position of ray and frustum", "anchors": ["export/FieldGroup.h:detail::intersect", "export/FieldGroup.h:FieldGroup::GetIntersections", "export/FieldGroup.h:FieldGroup::GetWsBounds"]}
{"id": "C70", "title": "A whole file is read back from its bytes", "statement": "A program writes any dense, sparse and MIP fields with any partition and layer names, null or matrix mappings and metadata, and metadata of the file, to an Ogawa file and closes it. Every call succeeds. The bytes of the file open again, and reading any partition and layer name gives exactly the fields written under it, each of them once, with every voxel (of every level of a MIP field, once loaded), both windows, the metadata (in which a MIP field always finds its offset, zero if none was written, and reports it), the names and a mapping that is identical to that of the field; fields of another voxel type or of an unknown class are left out, and the metadata of the file is that given first.", "quantifier": "every program of calls, every field content, every order in which the contents reach the archive, every schedule of the reading threads that lets them finish", "why_tests_cant": "composes archive, groups, partitions, fields, mappings and metadata for unbounded contents and all schedules", "anchors": ["src/Field3DFile.cpp:Field3DOutputFile::writeLayer", "src/Field3DFile.cpp:Field3DInputFile::readLayers", "src/Field3DFile.cpp:writeField", "src/Field3DFile.cpp:readField", "src/OArchive.cpp:OArchive"]}
{"id": "C71", "title": "Comparing mappings", "statement": "Comparing any two mappings built by any calls is defined. Without tolerance the comparison is reflexive, symmetric and transitive; mappings of different kinds are never identical; identical matrix mappings place every point at the same spot at every time unless two of their matrices differ by shear alone, and mappings with the same samples and extents are identical. A mirrored mapping is never identical to the original. Shears are not compared: two fields whose mappings differ by a shear alone, written to a file under one name, are read back with one and the same mapping. With a tolerance the comparison is neither symmetric nor transitive.", "quantifier": "every pair or triple of mappings, every history of calls that made them, every tolerance", "why_tests_cant": "continuous transforms and unbounded numbers of samples; relations between three objects", "anchors": ["src/FieldMapping.cpp:checkMatricesIdentical", "src/FieldMapping.cpp:MatrixFieldMapping::isIdentical", "src/FieldMapping.cpp:FrustumFieldMapping::isIdentical", "src/Field3DFile.cpp:File::intPartitionName"]}
{"id": "C72", "title": "Copying and comparing fields", "statement": "Copying a field into a dense or sparse field of the same or another voxel type always ends, with the windows of the source and the converted value of the source in every voxel, whatever the target held; a sparse target has every block allocated afterwards. After copying, or after matching definitions, the two fields have the same definition: windows, and a mapping that places every voxel alike. Comparing two fields ends and is true exactly if the windows are equal, the mappings identical and no voxel differs; a copy without NaN is identical to its source. Copying a field to itself loses all of its voxels; copying into a MAC field copies no voxel; a field with a NaN is not identical to itself.", "quantifier": "every source, every history of windows and mappings of both fields, every voxel content", "why_tests_cant": "unbounded windows and contents; relations between two fields with histories", "anchors": ["export/Field.h:ResizableField::copyFrom", "export/Field.h:ResizableField::matchDefinition", "export/Field.h:sameDefinition", "export/Field.h:isIdentical"]}
{"id": "C73", "title": "MIP levels lie where the base lies", "statement": "For a MIP field whose matrix mapping has affine samples that keep the lengths of the voxel edges, every level is placed so that its voxel p covers exactly the base voxels it was filtered from, at every time, with any offset, and whether the level is built from memory or loaded later: a world point in a base voxel lies in the coarse voxel of that base voxel. With the offsets computed from their mappings, the levels of fields on a common grid are again on a common grid. A field that grows over time has its levels misplaced, since the voxel size at time zero is used for all samples; a matrix mapping without samples has its levels misplaced; levels of frustum mappings are stretched over the frustum, which is right only when the resolution is divisible and ignores the offset.", "quantifier": "every history of calls on the mapping, every offset, level, extents, time and point", "why_tests_cant": "continuous transforms, unbounded levels and times", "anchors": ["src/MIPUtil.cpp:detail::adjustedMIPFieldMapping", "src/MIPUtil.cpp:computeOffset", "export/MIPField.h:MIPField::mappingChanged", "export/MIPField.h:MIPField::loadLevelFromDisk"]}
{"id": "C74", "title": "Min and max fields bound the field", "statement": "makeMinMax of a field that begins at zero and has two to 2^24 voxels along each axis succeeds for every fraction asked for, and gives a min and a max field with the same levels. In each voxel of each level the min (max) field has the least (greatest) of the values of the field whose voxel centres lie in that voxel, every voxel of the field is in some voxel of every level, and levels have no voxels without a centre. With a matrix mapping that keeps its size the levels fill the space of the field at every time. If the resolution of the field is a multiple of that asked for, the value of the field at every point lies between min and max there; otherwise there are points where the field is below its min field. A field with one voxel along an axis or that does not begin at zero gets empty min and max fields, without an error.", "quantifier": "every content, resolution, fraction, level, voxel, time and point", "why_tests_cant": "unbounded resolutions and levels; every point of space", "anchors": ["export/MinMaxUtil.h:makeMinMax", "export/Resample.h:separableResample", "export/MIPUtil.h:makeMIP"]}
{"id": "C75", "title": "MIP fields come back from files level by level", "statement": "A MIP field of any number of levels, each a dense or a sparse field, with no more voxels along any axis than the one before it and fewer along some, that is written to a file is read back with the same number of levels, the windows of the field and the resolution of every level known before anything is loaded, and every level, whenever it is asked for, loads as exactly the level written: windows and every voxel. Read as another voxel type it gives a null pointer and no level. A field without levels, or with a level that is not smaller than the one before, is written without complaint and gives an exception when read, never a field.", "quantifier": "every number of levels, every content and kind of level, every other contents of the file", "why_tests_cant": "unbounded numbers of levels, sizes and contents", "anchors": ["src/MIPFieldIO.cpp:MIPFieldIO::read(OgIGroup)", "src/MIPFieldIO.cpp:MIPFieldIO::write(OgOGroup)", "include/MIPFieldIO.h:MIPFieldIO::readInternal", "include/MIPFieldIO.h:GenericLazyLoadAction::load", "export/MIPField.h:MIPField::setupLazyLoad"]}
{"id": "C76", "title": "The offset of a MIP field", "statement": "The offset a MIP field reports is the one given last, and it is the one in its metadata, through any sequence of setting mappings and offsets, setting up levels from memory or for loading on demand, using levels and setting other metadata. Setting a mapping or levels takes the offset from the metadata, so a field that is read from a file has the offset that was stored. After a mapping or levels were set, the voxel coordinates of any world point in any level in memory or loaded since are those that sampling uses. makeMIP gives a field with the offset asked for and otherwise the metadata of the base. Levels that do not shrink are refused with an exception, but the old levels are gone by then and setting a mapping is then undefined. An offset given after the levels were set up leaves the levels where they were, and metadata edited by hand moves levels loaded later without changing the reported offset.", "quantifier": "every sequence of calls, every mapping history, offset, level, time and world point", "why_tests_cant": "unbounded histories of calls; continuous space and time", "anchors": ["export/MIPBase.h:MIPBase::setMIPOffset", "export/MIPField.h:MIPField::mappingChanged", "export/MIPField.h:MIPField::setup", "export/MIPField.h:MIPField::setupLazyLoad", "export/MIPField.h:MIPField::loadLevelFromDisk", "export/MIPUtil.h:makeMIP", "src/MIPUtil.cpp:detail::adjustedMIPFieldMapping"]}
{"id": "C77", "title": "Fields addressed with machine integers", "statement": "With the integer types of the source (int coordinates, size_t sizes), a dense field whose windows have sides below 2^31 and no more voxels than memory holds, a MAC field with fewer than 2^31 faces in each direction, and a sparse field with fewer than 2^31 blocks of at most 1024 voxels along each axis overflow in no resize, read, write, clear, block order change, release or grain lookup, and keep every voxel, face and block apart; the bounds are sharp. A dense field gets exactly its number of voxels modulo 2^64 elements, so a window with 2^64 voxels is accepted and has no elements; the voxel count reported and the number of elements written to a file are right exactly below 2^31 voxels. Grains and end iterators overflow exactly for windows that end at (for sparse grains: within a block of) the largest int.", "quantifier": "every window, every history of operations, every behaviour of overflowing operations, every allocator", "why_tests_cant": "the sizes concerned need gigabytes to terabytes, and overflow may do anything", "anchors": ["export/DenseField.h:sizeChanged", "export/DenseField.h:fastValue", "export/DenseField.h:getGrainBounds", "export/MACField.h:sizeChanged", "export/MACField.h:MACField::u", "export/SparseField.h:setupBlocks", "export/SparseField.h:blockId", "export/SparseField.h:fastLValue", "export/SparseField.h:getGrainBounds", "export/Field.h:FieldRes::voxelCount", "export/Field.h:indexToCoord", "src/DenseFieldIO.cpp:DenseFieldIO::writeInternal(OgOGroup)", "src/SparseFieldIO.cpp:SparseFieldIO::writeInternal(OgOGroup)"]}
{"id": "C78", "title": "Sparse fields that load from files, as objects", "statement": "With memory limits on, sparse fields read from files load their blocks when they are read and may lose them to the cache at any moment. Through any sequence of making, reading from file, copying, assigning, editing, reading and destroying such fields and fields in memory, with evictions and flushes in between, every read gives the value that the field holds as a map of its own: the stored values, those of the field it was copied from, as edited since; writes to voxels of a field loaded from file are ignored; other fields are not affected. Every block table belongs to one field, the cache lists each loaded block of existing fields once and nothing else, and a flush frees the data of all of them without changing what is seen. This holds as long as a field loaded from file is not cleared, resized, given another block order or assigned to after being read since the last flush (then the cache is left with a deleted block, and the next flush is undefined), its blocks are not released (undefined if one is not loaded), and it is not copied after a block of it was given an empty value (the copy then reads the wrong blocks).", "quantifier": "every sequence of calls and evictions, every number of fields and layers, every content", "why_tests_cant": "unbounded histories; evictions come at any moment; the failures are uses of freed memory", "anchors": ["export/SparseField.h:SparseField::copySparseField", "export/SparseField.h:SparseField::addReference", "export/SparseField.h:SparseField::setupReferenceBlocks", "export/SparseField.h:SparseField::fastValue", "export/SparseField.h:SparseField::setupBlocks", "export/SparseFile.h:SparseFileManager::activateBlock", "export/SparseFile.h:SparseFileManager::removeFieldFromCache", "src/SparseFile.cpp:SparseFileManager::flushCache", "src/SparseFieldIO.cpp:SparseFieldIO::readData"]}
{"id": "C79", "title": "Fields come back from HDF5 layers", "statement": "A dense, sparse or MAC field with any history that is written to an HDF5 layer is read back as the same field: windows, block order, allocated blocks, empty values and every value, with or without compression and whatever the memory limit of the reader, and whatever else is in the layer, which stays. Read as another voxel type it gives a null pointer. A layer holds one field; a second is refused. With compression a dense field of a single value is not written, but its layer is there and reading it throws. A field with a block that is not in memory, and a file with more values than the window has room for (unless the check, which rounds, notices), are undefined behaviour.", "quantifier": "every field with every history, every other contents of the layer, every memory limit, every voxel type", "why_tests_cant": "unbounded sizes, histories and contents; all numbers of passes over the blocks", "anchors": ["src/DenseFieldIO.cpp:DenseFieldIO::read(hid_t)", "src/DenseFieldIO.cpp:DenseFieldIO::write(hid_t)", "src/SparseFieldIO.cpp:SparseFieldIO::read(hid_t)", "src/SparseFieldIO.cpp:SparseFieldIO::write(hid_t)", "src/MACFieldIO.cpp:MACFieldIO::read", "src/MACFieldIO.cpp:MACFieldIO::write", "include/MACFieldIO.h:MACFieldIO::writeInternal", "include/MACFieldIO.h:MACFieldIO::readData", "export/SparseDataReader.h:SparseDataReader::readBlockList"]}
{"id": "C80", "title": "HDF5 files are read back", "statement": "A new HDF5 file into which any layers and file metadata were written in any order of calls, of which some may have failed, can be opened again, whatever the order in which the library visits links and attributes. Reading by partition and layer name gives exactly the scalar (vector) layers written under these names, each once, with the field, its metadata and a mapping read back from one identical to that of the field; the lists of partitions and layers of the writer and of the reader are sorted and list exactly what was written. File metadata can be written once. Every write succeeds if no layer is named mapping and no two layers of the same names are of different kinds. Layers named mapping, layers of different kinds with the same names and mapping, and metadata that use one name for two kinds are refused. After a mapping that could not be written, or a layer name that begins with a slash (which is reported as written), the file cannot be opened; after a field that could not be written its names cannot be read.", "quantifier": "every sequence of calls, every names, mappings, fields and metadata, every visiting order of the library", "why_tests_cant": "unbounded histories of calls and contents; the order of visits is not fixed", "anchors": ["src/Field3DFileHDF5.cpp:Field3DOutputFileHDF5::create", "src/Field3DFileHDF5.cpp:Field3DOutputFileHDF5::createNewPartition", "src/Field3DFileHDF5.cpp:Field3DInputFileHDF5::open", "src/Field3DFileHDF5.cpp:Field3DInputFileHDF5::readPartitionAndLayerInfo", "export/Field3DFileHDF5.h:Field3DInputFileHDF5::readLayers", "export/Field3DFileHDF5.h:Field3DOutputFileHDF5::writeLayer", "src/Field3DFileHDF5.cpp:writeMetadata", "src/Field3DFileHDF5.cpp:readMetadata"]}
{"id": "C81", "title": "File objects used for several files", "statement": "A file object can be used for one file after the other. Whatever an input object was used for, an HDF5 file is then opened and read as by a new HDF5 object; an object that has met only Ogawa and missing files opens and reads an Ogawa file as a new object does, with the metadata of the file laid over those of the files before. An output object writes an HDF5 file, whatever it was used for, as a new HDF5 object does; with Ogawa files only, every call has the effect it has for the Ogawa format. This is where it ends: metadata of earlier Ogawa files stay; after a file that is not an Ogawa file was opened, in vain or not, opening an Ogawa file returns true but nothing is listed or read; readLayers finds nothing in an HDF5 file; after an HDF5 file was created, creating an Ogawa file returns true but all scalar and vector layers and metadata are refused; writeLayer does not write to an HDF5 file but is refused or goes to the Ogawa file made before, which is still open.", "quantifier": "every sequence of opening, closing, clearing, creating and writing, every file, every field class", "why_tests_cant": "unbounded histories of an object over files of two formats", "anchors": ["src/Field3DFile.cpp:Field3DInputFile::open", "src/Field3DFile.cpp:Field3DFileBase::clear", "src/Field3DFile.cpp:Field3DFileBase::close", "src/Field3DFile.cpp:Field3DInputFile::readLayers", "src/Field3DFile.cpp:Field3DOutputFile::create", "src/Field3DFile.cpp:Field3DOutputFile::writeLayer", "src/Field3DFile.cpp:Field3DOutputFile::writeGlobalMetadata", "export/Field3DFile.h:Field3DInputFile::readScalarLayers", "export/Field3DFile.h:Field3DOutputFile::writeScalarLayer", "export/Field3DFile.h:Field3DInputFile::metadata", "export/Field3DFile.h:Field3DInputFile::encoding"]}
{"id": "C82", "title": "Proxies of layers", "statement": "Reading the proxies of a partition and layer name gives one for each layer written under these names, in the order in which the layers themselves are read, with the windows of the field, its metadata, the number of MIP levels as integer metadata mip_levels, its names and the mapping of its partition; reading the proxies of a layer name, or of all if it is empty, gives one for each layer of that name in a partition with a name, sorted by partition and layer name. This holds for every Ogawa file of dense, sparse and MIP fields of any voxel types written in any order of calls, and for every HDF5 file (there, of the scalar or vector layers only), and through a file object with any history for HDF5, or of Ogawa files only for Ogawa. It ends here: Ogawa files give the same proxies for scalar and for vector layers; one MAC field in an Ogawa file makes every list that includes it throw; files written with an object used before may give no proxies in the lists; integer metadata of the field's own named mip_levels are replaced.", "quantifier": "every sequence of calls, every names, fields, mappings and metadata, every order of visits, every history of the object", "why_tests_cant": "unbounded histories and contents", "anchors": ["src/Field3DFile.cpp:Field3DInputFile::readProxyLayer", "src/Field3DFile.cpp:Field3DInputFile::readProxyScalarLayers", "src/Field3DFile.cpp:Field3DInputFile::readProxyVectorLayers", "export/Field3DFileHDF5.h:Field3DInputFileHDF5::readProxyLayer", "export/Field3DFileHDF5.h:Field3DInputFileHDF5::readProxyScalarLayers"]}
{"id": "C83", "title": "Fields without voxels", "statement": "An EmptyField has the windows that were last set. After any calls that keep to its data window every voxel inside it has the value of the last clear; writing to voxels and setting the constant value change no voxel; the constant value is that of the last call that set it. Until clear is called the values of a proxy are not initialised.", "quantifier": "every sequence of calls, every field", "why_tests_cant": "unbounded sequences of calls; uninitialised values may look right in a test", "anchors": ["export/EmptyField.h:EmptyField::value", "export/EmptyField.h:EmptyField::lvalue", "export/EmptyField.h:EmptyField::clear", "export/EmptyField.h:EmptyField::setConstantvalue", "export/EmptyField.h:EmptyField::constantvalue"]}
{"id": "C84", "title": "Whole HDF5 files with the library's mappings", "statement": "Null, matrix and frustum mappings with any history of samples come back from an HDF5 file with the same transforms at every time and the same comparison with every other mapping; only a frustum mapping with samples but none at time zero cannot be written (undefined behaviour). So an HDF5 file into which any dense and sparse fields with such mappings and metadata were written gives back, by partition and layer name, exactly the layers written under these names, each once, with its field, its metadata and the mapping of a field of the same partition name that the library takes for identical; if no two mappings under a partition name differ by shear or mirroring only, with its own mapping. Groups of the old format, with one matrix, are read as this matrix at all times. A mapping of an unknown class is refused by the writer and gives null when read. A group from which a sample is missing throws an exception; one from which the number of samples is missing gives a mapping without samples, or the default frustum, in place of the mapping that was written.", "quantifier": "every sequence of calls, names, fields, metadata and mappings with any samples, every visiting order of the library", "why_tests_cant": "unbounded histories of calls, fields and numbers of samples", "anchors": ["src/FieldMappingIO.cpp:NullFieldMappingIO", "src/FieldMappingIO.cpp:MatrixFieldMappingIO::read(hid_t)", "src/FieldMappingIO.cpp:MatrixFieldMappingIO::write(hid_t)", "src/FieldMappingIO.cpp:FrustumFieldMappingIO::read(hid_t)", "src/FieldMappingIO.cpp:FrustumFieldMappingIO::write(hid_t)", "src/Field3DFileHDF5.cpp:readFieldMapping", "src/Field3DFileHDF5.cpp:writeFieldMapping", "src/Field3DFileHDF5.cpp:Field3DOutputFileHDF5::writeMapping", "src/Field3DFileHDF5.cpp:Field3DInputFileHDF5::readPartitionAndLayerInfo"]}
{"id": "C85", "title": "MIP fields in HDF5 files", "statement": "A MIP field of dense or sparse levels that is written to an HDF5 file comes back: its class of levels, voxel type, the windows of level 0, the number and the resolutions of the levels, the offset in its metadata, and, when they are loaded, every level with its windows and every voxel. So does a whole file with any dense, sparse and MIP fields, with their mappings and metadata. A proxy has the windows of level 0 and the number of levels. Asking for another voxel type gives null. Levels that do not shrink, or no levels, give an exception. A dense level of a single value, however, is not stored by a library with compression, although writing succeeds: loading it throws.", "quantifier": "every sequence of calls, names, fields, levels, metadata and mappings, every visiting order of the library", "why_tests_cant": "unbounded numbers of levels and layers and histories of calls", "anchors": ["src/MIPFieldIO.cpp:MIPFieldIO::read(hid_t)", "src/MIPFieldIO.cpp:MIPFieldIO::write(hid_t)", "include/MIPFieldIO.h:MIPFieldIO::writeInternal", "include/MIPFieldIO.h:MIPFieldIO::readInternal", "include/MIPFieldIO.h:GenericLazyLoadActionHDF5::load", "export/Field3DFileHDF5.h:readField"]}
{"id": "C86", "title": "Casts and choices by class", "statement": "field_dynamic_cast gives a pointer exactly if the object is of the class asked for or of one derived from it, for fields, interpolators, mappings and IO classes of all voxel types and for classes outside the library derived from them to any depth, given that these have type strings of their own; casts up never fail. So the writers of dense, sparse, MAC and MIP fields write a field as what it is, of the six stored voxel types (three for MAC fields), and throw for anything else, and a field group adds a field to the one list of its class and voxel type, or to none. It ends here: a cast to FieldBase is always null; empty fields of all voxel types, the generic interpolators of all field classes of a voxel type, the two Partition classes, and MIPDenseField and MIPSparseField with the classes they derive from, are taken for one another; and a field group leaves MAC, procedural and empty fields out without a message.", "quantifier": "every class and voxel type, every chain of derived classes, every list of voxel types of a group", "why_tests_cant": "unbounded chains of classes and voxel types; every pair of classes", "anchors": ["export/RefCount.h:field_dynamic_cast", "export/RefCount.h:DEFINE_MATCH_RTTI_CALL", "export/RefCount.h:RefBase::matchRTTI", "export/Traits.h:TemplatedFieldType", "export/Traits.h:NestedFieldType", "export/Traits.h:DataTypeTraits::name", "export/EmptyField.h:EmptyField::staticClassType", "src/DenseFieldIO.cpp:DenseFieldIO::write", "src/SparseFieldIO.cpp:SparseFieldIO::write", "src/MACFieldIO.cpp:MACFieldIO::write", "src/MIPFieldIO.cpp:MIPFieldIO::write", "export/FieldGroup.h:FieldGroup::setup", "export/FieldGroup.h:FieldGroup::GrabFields"]}
{"id": "C87", "title": "Groups of layers in HDF5 files", "statement": "Groups of layers that were added to an HDF5 file before writeGroupMembership, in any number of calls, are in the file: the call returns true, and readGroupMembership gives every group exactly its members in the order in which they were added, with partitions named without numbers, whatever was written before and after; entries of the caller's map for other groups stay. Everything else in the file is as without groups: results of calls, names, mappings, metadata and layers. Without the call there are no groups. A second call for the same file returns false and changes nothing. But members whose text does not end with a blank run together with those of the next call and make reading undefined behaviour; creating another file keeps the groups of the one before; and partition names with a dot lose what is behind it.", "quantifier": "every sequence of calls about layers, file metadata and groups, all names and members, every visiting order of the library", "why_tests_cant": "unbounded histories of calls and numbers of groups and members", "anchors": ["src/Field3DFileHDF5.cpp:Field3DFileHDF5Base::addGroupMembership", "src/Field3DFileHDF5.cpp:Field3DOutputFileHDF5::writeGroupMembership", "src/Field3DFileHDF5.cpp:Field3DInputFileHDF5::readGroupMembership", "src/Field3DFileHDF5.cpp:Field3DInputFileHDF5::readPartitionAndLayerInfo"]}
{"id": "C88", "title": "Plugins and the class factory", "statement": "Plugins are the files in the directories of FIELD3D_DSO_PATH whose name is so or ends in .so (dots at the end not counted). Every call about the class factory and plugins ends, no registration function is ever called for two files of the same name, whatever a program calls and however the search path, directories and files change in between, and the factory in use is never a deleted one. When a factory exists, loadPlugins calls the registration functions of all plugins with new names once, in the order of the search path, with this factory; the first plugin that provides a class decides. But when the first use of the factory loads the plugins, which is what initIO and file objects do, every registration function is called with a factory that is deleted before the call ends, in reverse order, and the program finds no class of any plugin. When loadPlugins is the first call, only the classes of the first plugin are found. A file hides all later ones of its name even if it cannot be opened.", "quantifier": "every search path, directory contents and plugins, every sequence of calls with changes in between", "why_tests_cant": "unbounded numbers of plugins, nested constructor calls and histories", "anchors": ["src/PluginLoader.cpp:PluginLoader::loadPlugins", "src/PluginLoader.cpp:getDirSos", "src/PluginLoader.cpp:filter", "src/PluginLoader.cpp:findRegistrationFunc", "src/ClassFactory.cpp:ClassFactory::ClassFactory", "src/ClassFactory.cpp:ClassFactory::singleton", "src/InitIO.cpp:initIO"]}
{"id": "C89", "title": "Sparse layers read with limited memory", "statement": "Reading sparse layers of an Ogawa file with limited memory agrees with reading them without a limit, whoever wrote the file: if the data is compressed, as many blocks as the file says and intact, then in every permitted sequence of opening, reading, copying, assigning, editing and destroying fields, with blocks evicted or flushed at any moment, no call throws and every voxel that is read is that of the field which reading without a limit gives. So for layers of any fields written by the library, under any interleaving of its writing threads, and for all sparse layers of a whole file with any fields, mappings and metadata, the voxels are those of the fields that were written. It ends here: a layer with uncompressed blocks opens but throws when a voxel is read; a layer that says it has no occupied blocks although some are allocated reads as zeros without a limit and fails with it; and a block that cannot be uncompressed is zero without a limit and the empty value of the block with it.", "quantifier": "all groups of all files, all voxel types, every sequence of calls and evictions, every schedule of the writing threads", "why_tests_cant": "unbounded histories of calls and evictions and all file contents", "anchors": ["src/SparseFieldIO.cpp:SparseFieldIO::readData(OgIGroup)", "src/SparseFieldIO.cpp:SparseFieldIO::read(OgIGroup)", "src/SparseFile.cpp:Reference::loadBlock", "src/SparseFile.cpp:Reference::openFile", "include/OgSparseDataReader.h:OgSparseDataReader", "export/SparseFile.h:SparseFileManager::activateBlock", "export/SparseField.h:SparseField::fastValue", "export/SparseField.h:SparseField::setupReferenceBlocks"]}
{"id": "C90", "title": "Layers written with fewer names", "statement": "Fields can be written with a partition and layer name, with a layer name alone, or with neither. In Ogawa files, for any mix of these calls, reading by partition and layer name gives exactly the fields whose calls returned true and that belong there: by the names of the call, in the partition default if only the layer is named, and by name and attribute of the field if nothing is named. In HDF5 files the same holds for calls with both names or none, and fields without name or attribute are refused. But the call that names only the layer writes, in HDF5 files, a layer of the name default to a partition with the name of the layer, so nothing is found in the partition default; and in Ogawa files a field without a name is written successfully but never found by partition and layer name.", "quantifier": "every sequence of calls in all forms, all names, fields and mappings, every visiting order of the library", "why_tests_cant": "unbounded histories of calls and all names", "anchors": ["export/Field3DFile.h:Field3DOutputFile::writeLayer", "export/Field3DFile.h:Field3DOutputFile::writeScalarLayer", "export/Field3DFile.h:Field3DOutputFile::writeVectorLayer", "export/Field3DFileHDF5.h:Field3DOutputFileHDF5::writeScalarLayer", "export/Field3DFileHDF5.h:Field3DOutputFileHDF5::writeVectorLayer"]}
{"id": "C91", "title": "Layers converted when they are read", "statement": "readScalarLayersAs and readVectorLayersAs of an HDF5 file give, for dense and for sparse fields, one field of the class asked for per layer, in the order of the layers: with the name, attribute, metadata, extents, data window and every voxel of the layer, and with a mapping that puts every point of voxel space in the same place at every time. A layer that already has the class is the same object. So for a whole file written by the library, with any dense and sparse fields, mappings and metadata, the call for a partition and layer name gives exactly the fields written there, converted. But a single layer with an empty data window makes the call for dense fields throw; conversion to sparse fields allocates every block, also where all voxels are zero; and conversion to MAC fields gives fields that are zero everywhere.", "quantifier": "all fields of all classes, every sequence of calls that writes the file, every visiting order of the library", "why_tests_cant": "unbounded sizes, numbers of layers and histories of calls", "anchors": ["export/Field3DFileHDF5.h:Field3DInputFileHDF5::readScalarLayersAs", "export/Field3DFileHDF5.h:Field3DInputFileHDF5::readVectorLayersAs", "export/DenseField.h:DenseField::copyFrom", "export/SparseField.h:SparseField::copyFrom", "export/Field.h:ResizableField::copyFrom", "export/MACField.h:MACField"]}
{"id": "C92", "title": "Ogawa archives with shared and changed parts", "statement": "At any time of any history of calls on an Ogawa archive that is being written (adding groups, making data in one piece or in parts, putting data and groups, frozen or not, into any groups any number of times, adding empty children, freezing groups in any order, replacing data children, rewriting bytes of data, closing), a reader that opens the file sees exactly what the calls describe, at every depth and in both reading modes: every place shows the bytes last written and the child last put there; a group that is not frozen is seen as empty and, from the moment it is frozen, with its children in every place it is in, whether the groups around it were frozen before or after. The questions of the writer about children agree with this. Data given in parts are data given in one piece. But rewriting checks offset and size with a sum that wraps around 64 bits, so a huge offset is accepted and overwrites the length in front of the data; and making data with no bytes adds an empty child to the group although the data were not added.", "quantifier": "every sequence of calls on any groups and data, with files below 2^63 bytes, data not empty and offset and size of a rewrite below 2^64", "why_tests_cant": "unbounded histories, numbers of groups, data and places, and depth; freezing in any order", "anchors": ["src/OGroup.cpp:OGroup::addGroup", "src/OGroup.cpp:OGroup::createData", "src/OGroup.cpp:OGroup::addData", "src/OGroup.cpp:OGroup::freeze", "src/OGroup.cpp:OGroup::replaceData", "src/OGroup.cpp:OGroup::isChildEmptyGroup", "src/OData.cpp:OData::rewrite", "src/IArchive.cpp:IArchive::init", "src/IGroup.cpp:IGroup::getGroup", "src/IData.cpp:IData::read"]}
{"id": "C93", "title": "Statistics of the block cache", "statement": "After any history of reads by any number of threads, evictions, flushes, changes of the limit, destructions of fields and resets of the statistics: the number of loaded blocks is the number of blocks whose voxels are in memory; the number of blocks ever loaded is the number of those in memory or loaded since the last reset; the number of loads is the sum over the blocks of how often each came into memory since the last reset or the destruction of its field and, while no field is destroyed, the number of steps since the last reset that brought a block into memory. The three ratios are those of these numbers, and the fraction loaded lies between 0 and 1. Without a reset the efficiency is at most 1, and is 1 exactly if no block was loaded twice; without a limit and flushes no block is loaded twice. But after a reset with blocks in memory the efficiency exceeds 1 with no load at all, and destroying a field takes its loads out of the total.", "quantifier": "every history of calls and every schedule of any number of threads, any numbers of fields and blocks", "why_tests_cant": "unbounded histories and schedules; counters against what happened", "anchors": ["src/SparseFile.cpp:SparseFileManager::totalLoads", "src/SparseFile.cpp:SparseFileManager::numLoadedBlocks", "src/SparseFile.cpp:SparseFileManager::totalLoadedBlocks", "src/SparseFile.cpp:SparseFileManager::cacheFractionLoaded", "src/SparseFile.cpp:SparseFileManager::cacheLoadsPerBlock", "src/SparseFile.cpp:SparseFileManager::cacheEfficiency", "src/SparseFile.cpp:SparseFileManager::resetCacheStatistics", "export/SparseFile.h:Reference::totalLoadedBlocks", "export/SparseFile.h:SparseFileManager::activateBlock", "export/SparseFile.h:SparseFileManager::removeFieldFromCache"]}
{"id": "C94", "title": "Field groups over a history of calls", "statement": "After any history of calls that set the transform, the value operator or the test against world bounds, set fields up, load layers or make minima and maxima: the group has exactly the fields given to it that it has lists for, in the order of giving, each with the transform and operator that were set when it was given (none for the identity) and with the test against bounds if it was on then or switched on later. The size is their number, the MIP size that of the MIP fields among them. Loading from a file that cannot be opened returns -1 and changes nothing; otherwise it adds the layers of the name from all partitions and returns how many were added. The group says that it has minima and maxima exactly if MIP fields of both were given, loaded or made. While it does not, its range of values bounds every voxel looked at of every field, if all meet the bounds, and its ends are such values. But the list of fields is only what the last setup or load was given; once there are minima and maxima, fields added without them do not count for the range; and the test against bounds cannot be switched off for fields that are there.", "quantifier": "every history of calls, all fields, voxel types, transforms, operators, files and bounds", "why_tests_cant": "unbounded histories; what is set applies to fields given later, in part also to earlier ones", "anchors": ["export/FieldGroup.h:FieldGroup::setup", "export/FieldGroup.h:FieldGroup::setupMinMax", "export/FieldGroup.h:FieldGroup::load", "export/FieldGroup.h:FieldGroup::makeMinMax", "export/FieldGroup.h:FieldGroup::setWsBoundsOptimization", "export/FieldGroup.h:FieldGroup::size", "export/FieldGroup.h:FieldGroup::sizeMIP", "export/FieldGroup.h:FieldGroup::fields", "export/FieldGroup.h:FieldGroup::hasPrefiltMinMax", "export/FieldGroup.h:FieldGroup::getMinMax"]}
{"id": "C95", "title": "Copying, assigning and filling MIP fields", "statement": "In every program with any number of MIP fields, fields and pointers: a copy of a MIP field answers every question as the original did (the voxels of all levels, which levels are in memory, resolutions, numbers of levels and voxels; levels not in memory are loaded by each on its own), and making it changes nothing in other MIP fields. Whatever is then done to the original, to its levels or to fields it was made from does not change what the copy shows, and nothing done to the copy changes what the others show. Reading changes nothing that can be read. A MIP field set up from fields shows their voxels, one set up for loading on demand shows what its actions load and has nothing in memory; a level taken out is the level itself. After an assignment a level shows what it shows in the source, except if it is not in memory in the source and was in memory in the target: then the target still shows its own old level. A MIP field can be copied after it was set up, cleared or assigned to; before, it says that it has one level, but reading, copying and assigning it are undefined.", "quantifier": "every history of calls, all fields, files, failing loads and levels", "why_tests_cant": "unbounded histories with shared fields and pointers; the wrong case of assignment needs a mix of levels in memory and on disk", "anchors": ["export/MIPField.h:MIPField::init", "export/MIPField.h:MIPField::operator=", "export/MIPField.h:MIPField::clear", "export/MIPField.h:MIPField::setup", "export/MIPField.h:MIPField::setupLazyLoad", "export/MIPField.h:MIPField::loadLevelFromDisk", "export/MIPField.h:MIPField::concreteMipLevel", "export/MIPField.h:MIPField::fastMipValue", "export/MIPField.h:MIPField::voxelCount", "export/MIPField.h:MIPField::levelLoaded"]}
{"id": "C96", "title": "Small steps of the sample point", "statement": "With the linear interpolators of dense, sparse and MAC fields a step of the sample point, anywhere and of any length, also across voxels, blocks and the border of the window, changes the sample by at most the length of the step along the axes times the largest difference of neighbouring values. With the cubic interpolator a step along x changes it by at most a constant times the largest magnitude times the step, if the window does not start after 0; but it jumps along z: there is a field of sixteen voxels and a point at which the sample is 1/2 while it is 1/16 at all points right after it.", "quantifier": "all windows, values and pairs of sample points", "why_tests_cant": "all pairs of points, however near", "anchors": ["export/FieldInterp.h:LinearFieldInterp::sample", "export/FieldInterp.h:LinearGenericFieldInterp::sample", "export/SparseField.h:LinearSparseFieldInterp::sample", "export/FieldInterp.h:LinearMACFieldInterp::sample", "export/FieldInterp.h:CubicFieldInterp::sample", "export/FieldInterp.h:monotonicCubicInterpolant"]}
{"id": "C97", "title": "Messages and memory figures", "statement": "After any calls the console shows exactly the messages printed while the last verbosity set was at least one (one at the start), in order, with warnings marked. The text for a number of bytes has its sign, the largest unit that fits, and states the number up to half a unit of the third decimal and one part in 2^24; a larger number is never stated as a smaller one; below 1024 it is exact; the least 64 bit number is undefined, and a byte below a gigabyte is shown as 1024.000 MB. The resident memory reported is that of the kernel if the name of the process has no white space; with a space in it the size of the virtual memory, in bytes, is taken as a number of pages.", "quantifier": "all histories of messages and levels, all 64 bit numbers and pairs of them, all process names and figures", "why_tests_cant": "the numbers and names cannot be enumerated", "anchors": ["src/Log.cpp:print", "src/Log.cpp:setVerbosity", "src/Log.cpp:bytesToString", "src/Log.cpp:currentRSS"]}
{"id": "C98", "title": "Merging files", "statement": "The program f3dmerge, given any number of Ogawa files that can be read, ends with a file that has, for each input file in turn, a copy of every layer of one of the six voxel types that the name and attribute patterns pick (and that has a partition name), of each exactly one, with its names, contents and a mapping read back from one identical to its own, and nothing else; layers with the same names, from the same or different files, are all kept. The merged file lists exactly their partitions and layers. Reading it by name, with any voxel type, gives the contents of exactly the wanted layers of that type and those names, provided what a class saves is read back. The metadata of the files is lost, and a file that cannot be opened ends the program.", "quantifier": "all numbers and contents of input files, all layers, names, mappings and patterns", "why_tests_cant": "any number of files with any layers and any clashes of names", "anchors": ["apps/f3dmerge/main.cpp:main", "apps/f3dmerge/main.cpp:writeOutput", "apps/f3dmerge/main.cpp:writeField", "src/PatternMatch.cpp:match", "src/Field3DFile.cpp:Field3DInputFile::readLayers", "src/Field3DFile.cpp:Field3DOutputFile::writeLayer"]}
{"id": "C99", "title": "Making MIP fields for files", "statement": "The program f3dmakemip, given any number of Ogawa files that can be read and whose fields can be filtered, ends with a file that has, for each input file in turn and each layer of one of the six voxel types that the patterns pick exactly once, a MIP field with the same names and, if asked for, its lower and upper bounds with _min and _max added to the attribute, and nothing else; fields of other classes are left out. Layers that already end in _min or _max get bounds of their own, although the program says it skips them. A single layer with padding, for which the library makes no MIP field, makes it use a null pointer; a file that cannot be opened ends the program.", "quantifier": "all numbers and contents of input files, all layers, names, mappings, classes and patterns, all results of the filtering", "why_tests_cant": "any number of files with any layers and any clashes of names", "anchors": ["apps/f3dmakemip/main.cpp:main", "apps/f3dmakemip/main.cpp:makeMIP", "apps/f3dmakemip/main.cpp:writeField", "export/MIPUtil.h:makeMIP", "export/MinMaxUtil.h:makeMinMax"]}
{"id": "C100", "title": "Parameters of procedural fields", "statement": "After any history of changes of its metadata, an integer parameter of a procedural field, read as a value of the type of the voxels, is the last one set under the name, or else the default without its fraction, converted to the type: exactly for double, up to 2^24 exactly and else to one part in 2^24 for float, up to 2048 exactly and else to one part in 2^11 for half, infinite from 65520 on; vectors by components. A default outside of the range of int is undefined even if the parameter is set. A float parameter is the last float set under the name, converted to the type of the voxels, or else the default, which comes back as it is for half and float but not always for double.", "quantifier": "all histories of metadata changes, names, defaults and values, all six voxel types", "why_tests_cant": "all values and histories", "anchors": ["export/ProceduralField.h:typedIntMetadata", "export/ProceduralField.h:typedFloatMetadata", "src/FieldMetadata.cpp:intMetadata", "src/FieldMetadata.cpp:vecIntMetadata"]}
{"id": "C101", "title": "Iterators over fields read on demand pin the block they are in", "statement": "After any history of making, advancing, dereferencing and destroying const iterators over a sparse field that is read on demand, with any number of iterators at once, the reference count of each block in the file is what it was plus the number of iterators now in the block: the block of a living iterator cannot be evicted, and no pin stays behind when the iterators are gone. This does not extend to copies of iterators: destroying a copy removes the pin of the original.", "quantifier": "all reachable fields, all histories of calls on any number of iterators, all sub-windows, all blocks", "why_tests_cant": "all interleavings of iterators, blocks with and without data, windows that end inside a block", "anchors": ["export/SparseField.h:SparseField::const_iterator", "export/SparseFile.h:SparseFileManager::incBlockRef", "export/SparseFile.h:SparseFileManager::decBlockRef"]}
{"id": "C102", "title": "Interpolating a vector field is interpolating its components", "statement": "Each component of a linear or cubic sample of a field of vectors is the sample of the field of that component, so linear samples are defined everywhere, exact at voxel centers and between the values of near voxels by components, and cubic samples are defined and exact at centers with non-negative coordinates. Applying a linear map to all vectors of a field applies it to its linear samples. This does not hold of cubic samples, which depend on the coordinates in which vectors are stored.", "quantifier": "all vector fields, data windows, sample points, components and linear maps", "why_tests_cant": "all values and positions; components that are equal at neighbouring voxels are treated apart", "anchors": ["export/FieldInterp.h:LinearFieldInterp::sample", "export/FieldInterp.h:CubicFieldInterp::sample", "export/FieldInterp.h:monotonicCubicInterpolantVec"]}
{"id": "C103", "title": "Dynamically loaded fields of different types do not get in each other's way", "statement": "A dynamically loaded field gets a number among the fields of its voxel type and is found by type and number whatever fields of any types are opened later; two fields of one type have different numbers; counts, totals and memory figures are those of all fields. Loading or freeing a block of a field changes no block of any other field, also not of a field of another type with the same number; memory in use is that of the blocks in memory, each counted once with the size for its field; flushing always ends, with no block in memory and no memory in use; destroying a field takes its blocks and those of no other field.", "quantifier": "all sequences of opening fields of the six types, loading and freeing blocks at any place of the list, flushing and destroying fields", "why_tests_cant": "numbers of different types coincide and the type of a block is looked up at run time; all interleavings of types and numbers cannot be tried", "anchors": ["export/SparseFile.h:FileReferences", "export/SparseFile.h:SparseFileManager::activateBlock", "export/SparseFile.h:SparseFileManager::removeFieldFromCache", "src/SparseFile.cpp:SparseFileManager::flushCache", "src/SparseFile.cpp:SparseFileManager::deallocateBlocks"]}
{"id": "C104", "title": "The figures of memory use follow what is allocated", "statement": "After any operations on a sparse field its memory figure is the size of the object, plus one entry per block over the window, plus the voxels that the voxel count counts. A write adds the voxels of one block if the block of the voxel had none and nothing otherwise; releasing blocks takes off exactly the voxels of the blocks it says it freed; clearing leaves no voxels in the figure. The figure of a dense field has room for every voxel of its window, that of a MAC field for every face of every window it ever had. The figures of a MIP field are the sums over the levels in memory, so that loading a level adds the figure of the level.", "quantifier": "all windows, block orders up to 10, voxel types and sizes of the C++ objects, and all sequences of operations on the field; all sets of loaded levels", "why_tests_cant": "the figures depend on the history of writes and releases and on sizes of the compiler; a test fixes both", "anchors": ["export/SparseField.h:SparseField::memSize", "export/SparseField.h:SparseField::voxelCount", "export/DenseField.h:DenseField::memSize", "export/MACField.h:MACField::memSize", "export/EmptyField.h:EmptyField::memSize", "export/MIPField.h:MIPField::memSize", "export/MIPField.h:MIPField::voxelCount"]}
{"id": "C105", "title": "The program that lists files lists every layer once", "statement": "f3dinfo prints, for each of its files in turn, the name of the file, one entry for every layer whose partition matches one of the name patterns and whose layer name matches one of the attribute patterns (no patterns match everything), and the metadata of the file, and nothing else. Entries have the type, names and contents of the layers; layers with the same names or of different types have entries of their own. A file that cannot be opened ends the program with code 1: the files before it are listed, the ones after it are not.", "quantifier": "all lists of Ogawa files, each written by any sequence of calls, all lists of patterns and all regular expressions", "why_tests_cant": "the numbers of files, layers, equal names and patterns have no bound", "anchors": ["apps/f3dinfo/main.cpp:main", "apps/f3dinfo/main.cpp:printFileInfo", "apps/f3dinfo/main.cpp:matchString"]}
{"id": "C106", "title": "The program that makes sample files stores the field that was asked for", "statement": "f3dsample makes a field whose numbers have the bits asked for (any number of bits but 64 and 32 gives 16), of the class asked for (a class it does not know, and a MAC field of scalars, give a dense field); the kind of filling asked for changes nothing. If the file can be made and the names can be stored, the file opens, lists exactly that name and attribute, and reading them gives exactly one field, with the mapping and contents that were made, and the metadata of the file is the five entries the program sets. If the file cannot be made the program does not notice, and its behaviour is undefined.", "quantifier": "all options, all contents, all mappings and all names without NUL and '/'", "why_tests_cant": "names, classes, bits and contents have no bound", "anchors": ["apps/f3dsample/main.cpp:createField", "apps/f3dsample/main.cpp:createConcreteScalarField", "apps/f3dsample/main.cpp:createConcreteVectorField", "apps/f3dsample/main.cpp:writeGlobalMetadata"]}
