{"id": "C01", "title": "Bit-depth conversion is lossless and full-scale preserving", "statement": "Converting a value from any bit depth to the normalised range and back to the same bit depth returns the value; the maximum code of an integer depth is sent to 1, 0 to 0, and float depths (and unknown depth strings) are left alone.", "quantifier": "every bit-depth string (known or unknown) and every finite, infinite or NaN value", "why_tests_cant": "the value domain is unbounded and the depth is an arbitrary attribute string", "anchors": ["python/aces/clf/ProcessNode.py:bitDepthToNormalized", "python/aces/clf/ProcessNode.py:normalizedToBitDepth", "python/aces/clf/ProcessNode.py:bitDepthSize"]}
{"id": "C02", "title": "clamp confines every float", "statement": "clamp(v, lo, hi) with lo <= hi always returns a finite value in [lo, hi], including for NaN and infinities; it returns v itself when v is already inside, is idempotent, and preserves order.", "quantifier": "every float value v, including NaN and +/-Inf, and every lo <= hi", "why_tests_cant": "NaN ordering depends on argument order of min/max and the domain is infinite", "anchors": ["python/aces/clf/Common.py:clamp"]}
{"id": "C03", "title": "Strict reading admits only known, enabled node types", "statement": "If reading a ProcessList document in strict mode succeeds, then every top-level child element is a known element type and every top-level node type that belongs to a vendor extension has that extension enabled; if some child violates this, reading raises UnknownProcessNodeError or UnsupportedExtensionError.", "quantifier": "every document tree, every feature-compatibility mask", "why_tests_cant": "documents are unbounded trees and the mask is global mutable state", "anchors": ["python/aces/clf/ProcessList.py:ProcessList.read", "python/aces/clf/Common.py:setFeatureCompatibility"]}
{"id": "C04", "title": "Strict reading is enforced at every nesting depth", "statement": "A strict read rejects unknown or disabled elements wherever they occur in the document, also inside Group elements.", "quantifier": "every document tree with nested Groups and every feature mask", "why_tests_cant": "nesting depth is unbounded", "anchors": ["python/aces/clf/ExtensionGroup.py:Group.readChild", "python/aces/clf/ProcessList.py:ProcessList.read"]}
{"id": "C05", "title": "Non-strict reading keeps every known node in document order", "statement": "A non-strict read yields exactly the known process nodes, in document order, whatever the feature mask; unknown elements are dropped and nothing else is.", "quantifier": "every document tree and every feature mask", "why_tests_cant": "ranges over all documents and masks", "anchors": ["python/aces/clf/ProcessList.py:ProcessList.read"]}
{"id": "C06", "title": "A clamping Range never leaves its output interval", "statement": "A clamping Range with all four bounds given and minOut <= maxOut outputs, for every channel, a value in [minOutValue, maxOutValue] (in output code values), even for NaN or infinite inputs.", "quantifier": "every finite bound quadruple with minIn != maxIn, every bit-depth pair, every input array including NaN and Inf", "why_tests_cant": "all floats, all bounds", "anchors": ["python/aces/clf/Range.py:Range.process"]}
{"id": "C07", "title": "Range maps its input interval affinely onto its output interval", "statement": "With all four bounds given, minInValue is mapped to minOutValue, maxInValue to maxOutValue, every point in between to the affine interpolation, and the map preserves order when the intervals are correctly ordered.", "quantifier": "every bound quadruple, every bit-depth pair, every finite input", "why_tests_cant": "all values and all bound combinations", "anchors": ["python/aces/clf/Range.py:Range.process"]}
{"id": "C08", "title": "A Range without bounds is exactly a bit-depth conversion", "statement": "A Range with no bounds multiplies by outFullScale/inFullScale whatever its style, and converting depth a to b and back to a is the identity.", "quantifier": "every depth pair, every input array", "why_tests_cant": "unbounded inputs", "anchors": ["python/aces/clf/Range.py:Range.process"]}
{"id": "C09", "title": "Swapping a Range's bounds inverts it", "statement": "The Range with input and output bounds (and bit depths) exchanged undoes the original Range: exactly everywhere when not clamping, and on the input interval when clamping.", "quantifier": "all four bounds with nonzero widths, all depth pairs, all finite inputs", "why_tests_cant": "algebraic law over all values", "anchors": ["python/aces/clf/Range.py:Range.process"]}
{"id": "C10", "title": "Matrix node is the stated affine map on its channels", "statement": "For an n x n or n x (n+1) matrix, every pixel's first n channels become M.v (+ the last column), and every further channel is returned unchanged.", "quantifier": "every n, every matrix, every stride >= n, every number of pixels", "why_tests_cant": "dimension, stride and pixel count are unbounded", "anchors": ["python/aces/clf/Matrix.py:Matrix.process"]}
{"id": "C11", "title": "Two Matrix nodes in sequence equal the product matrix", "statement": "Processing by Matrix A and then Matrix B gives the same result as processing by the single Matrix holding the product B.A.", "quantifier": "every n, all n x n matrices, every pixel", "why_tests_cant": "algebraic law over all matrices", "anchors": ["python/aces/clf/Matrix.py:Matrix.process", "python/aces/clf/ProcessList.py:ProcessList.process"]}
{"id": "C12", "title": "IndexMap evaluation never fails and stays within its outputs", "statement": "Evaluating an IndexMap on a finite value never raises, never divides by zero, and returns a value between the smallest and largest output, even if the input list is not sorted.", "quantifier": "every non-empty pair of equal-length lists, every finite value", "why_tests_cant": "list lengths and contents are unbounded; the loop bound in the code (i+1) looks like it could overrun", "anchors": ["python/aces/clf/IndexMap.py:IndexMap._processRaw"]}
{"id": "C13", "title": "IndexMap is exact at its knots, clamps outside and preserves order", "statement": "For strictly increasing inputs the map sends each input knot to its output, saturates outside the knots, and is non-decreasing whenever its outputs are.", "quantifier": "every strictly increasing knot list, every finite value pair", "why_tests_cant": "unbounded knot lists", "anchors": ["python/aces/clf/IndexMap.py:IndexMap._processRaw"]}
{"id": "C14", "title": "1D LUT returns the stored sample at sample positions and saturates outside [0,1]", "statement": "At position k/(n-1) the linear 1D LUT returns exactly the k-th entry of the addressed channel; below 0 it returns the first and above 1 the last entry.", "quantifier": "every table, 1- or 3-channel tables (two-channel tables: C76), every k, every out-of-range position", "why_tests_cant": "table sizes are unbounded", "anchors": ["python/aces/clf/Array.py:Array.lookup1DLinear", "python/aces/clf/Array.py:Array.lookup1D", "python/aces/clf/LUT1D.py:LUT1D.process"]}
{"id": "C15", "title": "1D LUT output stays within its table and preserves order of monotone tables", "statement": "For every finite position the linear lookup lies between the smallest and largest entry of the channel, and if the channel's entries are non-decreasing the lookup is non-decreasing in the position.", "quantifier": "every table and every pair of finite positions", "why_tests_cant": "unbounded tables and positions", "anchors": ["python/aces/clf/Array.py:Array.lookup1DLinear"]}
{"id": "C16", "title": "Sampling a function into a 1D LUT and reading the LUT agree at the sample points; the identity LUT is a clamp", "statement": "The LUT built from function f returns f(k/(n-1)) at every sample position in each channel, and the LUT built from the identity is clamp to [0,1] everywhere.", "quantifier": "every function f, every resolution >= 2, every channel count 1 or 3", "why_tests_cant": "quantifies over functions", "anchors": ["python/aces/clf/LUT1D.py:simpleSampledLUT", "python/aces/clf/Array.py:Array.lookup1DLinear"]}
{"id": "C17", "title": "Non-finite inputs to a 1D LUT never crash and stay non-finite", "statement": "NaN gives NaN, and for tables of at least two entries +Inf gives +Inf and -Inf gives -Inf in the linear lookup.", "quantifier": "every table, both infinities and NaN", "why_tests_cant": "special values over all tables", "anchors": ["python/aces/clf/Array.py:Array.lookup1DLinear"]}
{"id": "C18", "title": "Half-domain LUT is exact on every half float", "statement": "If the input is exactly representable as a half float, the half-domain lookup returns the table entry whose index is the half's 16-bit code; +Inf, -Inf and NaN use entries 31744, 64512 and 31745.", "quantifier": "every 65536-entry table, every half value", "why_tests_cant": "needs the rounding function and index arithmetic for every code and every table", "anchors": ["python/aces/clf/Array.py:Array.lookup1DHalfDomainInterpolated"]}
{"id": "C19", "title": "Half-domain lookup of a finite value only blends two adjacent same-sign finite entries", "statement": "For every finite input that does not overflow half precision the result is a convex combination of two table entries whose codes are equal or adjacent, both on the sign side of the input, and never an Inf or NaN entry.", "quantifier": "every finite float input, every table", "why_tests_cant": "needs to hold between all half values, over every float32 input", "anchors": ["python/aces/clf/Array.py:Array.lookup1DHalfDomainInterpolated"]}
{"id": "C20", "title": "The identity half-domain LUT is the identity", "statement": "The half-domain LUT built from the identity function returns its input exactly for every real |x| <= 65504 and saturates at +/-65504 up to the half overflow threshold 65520.", "quantifier": "every real input in range", "why_tests_cant": "uncountably many inputs between halves", "anchors": ["python/aces/clf/LUT1D.py:simpleSampledLUTHalfDomain", "python/aces/clf/Array.py:Array.lookup1DHalfDomainInterpolated"]}
{"id": "C21", "title": "3D LUT returns the stored colour at lattice points", "statement": "For an n x n x n table both interpolation methods return exactly the stored triple at every lattice point.", "quantifier": "every n >= 2, every table, every lattice point, both interpolations", "why_tests_cant": "sizes unbounded", "anchors": ["python/aces/clf/Array.py:Array.lookup3D", "python/aces/clf/Array.py:Array.lookup3DTrilinear", "python/aces/clf/Array.py:Array.lookup3DTetrahedral"]}
{"id": "C22", "title": "3D LUT output is a convex combination of the surrounding lattice colours", "statement": "For every input colour, including out-of-range, infinite and NaN channels, each output channel lies between the least and greatest value of that channel in the table, for both interpolation methods.", "quantifier": "every cubic table and every input colour", "why_tests_cant": "all colours and tables", "anchors": ["python/aces/clf/Array.py:Array.lookup3DTrilinear", "python/aces/clf/Array.py:Array.lookup3DTetrahedral"]}
{"id": "C23", "title": "3D LUTs of affine functions are exact", "statement": "A cube sampled from an affine colour transform reproduces that transform exactly on [0,1]^3 under both interpolation methods; in particular the identity cube is the identity on [0,1]^3 and clamps outside.", "quantifier": "every affine map, every cube size >= 2, every colour in [0,1]^3", "why_tests_cant": "uncountable inputs, all sizes", "anchors": ["python/aces/clf/Array.py:Array.lookup3DTrilinear", "python/aces/clf/Array.py:Array.lookup3DTetrahedral", "python/aces/clf/LUT3D.py:simple3DLUT"]}
{"id": "C24", "title": "3D LUTs with unequal side lengths address the right entry", "statement": "For every table of size a x b x c laid out row-major, the lookup at lattice point (i,j,k) returns the (i,j,k) entry.", "quantifier": "every a, b, c >= 2 and every lattice point", "why_tests_cant": "all sizes", "anchors": ["python/aces/clf/Array.py:Array.lookup3D", "python/aces/clf/LUT3D.py:simple3DLUT"]}
{"id": "C25", "title": "Tetrahedral interpolation does not depend on how ties are broken and agrees with trilinear on cell edges", "statement": "On the boundary between two tetrahedra both formulas give the same colour, and on the edges of a lattice cell tetrahedral and trilinear interpolation agree.", "quantifier": "all corner colours and all fractional positions", "why_tests_cant": "continuous domain", "anchors": ["python/aces/clf/Array.py:Array.lookup3DTetrahedral", "python/aces/clf/Array.py:Array.lookup3DTrilinear"]}
{"id": "C26", "title": "CDL Fwd confines output to the legal range", "statement": "An ASC CDL node in style Fwd or v1.2_Fwd outputs code values in [0, fullscale] on the three colour channels for every input including NaN and infinities, every slope/offset/power/saturation.", "quantifier": "every parameter set, every input, every depth pair", "why_tests_cant": "all parameters and values", "anchors": ["python/aces/clf/ASCCDL.py:ASCCDL.process"]}
{"id": "C27", "title": "The neutral CDL is transparent", "statement": "With slope 1, offset 0, power 1, saturation 1 (also when unspecified) the FwdNoClamp and in-range Fwd, Rev and RevNoClamp styles only convert bit depth; Fwd and Rev clamp to the legal range.", "quantifier": "every input colour, every depth pair", "why_tests_cant": "all values", "anchors": ["python/aces/clf/ASCCDL.py:ASCCDL.process"]}
{"id": "C28", "title": "CDL Rev undoes CDL Fwd where Fwd did not clip", "statement": "For positive slope and power and nonzero saturation, Rev applied to the result of Fwd returns the original colour whenever the colour was legal and no clamp was active in Fwd.", "quantifier": "every parameter set and legal colour", "why_tests_cant": "real-valued law with powers", "anchors": ["python/aces/clf/ASCCDL.py:ASCCDL.process"]}
{"id": "C29", "title": "CDL RevNoClamp undoes CDL FwdNoClamp", "statement": "RevNoClamp applied to the result of FwdNoClamp returns the original colour, with no restriction to [0,1].", "quantifier": "every parameter set with nonzero slope, power, saturation and every colour", "why_tests_cant": "all colours", "anchors": ["python/aces/clf/ASCCDL.py:ASCCDL.process"]}
{"id": "C30", "title": "Gamma basicRev undoes basicFwd", "statement": "For positive gamma, basicRev after basicFwd returns every non-negative value and sends negative values to 0 (a negative gamma works for positive values only and raises at zero); per-channel parameters override in the order they were set.", "quantifier": "every gamma, every value, every parameter list", "why_tests_cant": "real-valued law, arbitrary parameter histories", "anchors": ["python/aces/clf/ExtensionGamma.py:Gamma.process"]}
{"id": "C31", "title": "Gamma moncurveRev undoes moncurveFwd", "statement": "For gamma > 1 and offset > 0, moncurveRev after moncurveFwd returns the input value.", "quantifier": "every gamma > 1, offset > 0, every value", "why_tests_cant": "real-valued law; the defect region depends on the parameters", "anchors": ["python/aces/clf/ExtensionGamma.py:Gamma.process"]}
{"id": "C32", "title": "Log and antilog styles are mutually inverse", "statement": "antiLog10 after log10 and antiLog2 after log2 return every value not below the smallest normal float, smaller values are raised to that floor, and log after antilog returns every value whose antilog is not below the floor.", "quantifier": "every value", "why_tests_cant": "real-valued law", "anchors": ["python/aces/clf/ExtensionLog.py:Log.process"]}
{"id": "C33", "title": "linToLog and logToLin are mutually inverse", "statement": "With equal parameters (positive gamma, refBlack < refWhite, highlight > shadow) logToLin after linToLog, and linToLog after logToLin, return the input wherever the relative exposure is above the floating-point floor.", "quantifier": "every parameter set in range, every value above the floor", "why_tests_cant": "real-valued law", "anchors": ["python/aces/clf/ExtensionLog.py:Log.process"]}
{"id": "C34", "title": "Extra channels of each pixel pass through unchanged", "statement": "For pixels with more than three channels every node except Range (and a Matrix of more than three rows, which transforms the further channels by design) returns channels 4.. of each pixel unchanged.", "quantifier": "every node type and parameters, every stride, every pixel of every image row", "why_tests_cant": "all pixel counts and strides; the defect only shows beyond the first pixel", "anchors": ["python/aces/clf/Matrix.py:Matrix.process", "python/aces/clf/LUT1D.py:LUT1D.process", "python/aces/clf/LUT3D.py:LUT3D.process", "python/aces/clf/ASCCDL.py:ASCCDL.process", "python/aces/clf/ExtensionGamma.py:Gamma.process", "python/aces/clf/ExtensionLog.py:Log.process", "python/aces/clf/ExtensionExposureContrast.py:ExposureContrast.process"]}
{"id": "C35", "title": "Every interpolation and style value accepted by a node can be processed", "statement": "Processing a well-formed node does not raise for any documented style or interpolation value (LUT1D linear/cubic, ExposureContrast linear/video/log).", "quantifier": "every documented style and every input", "why_tests_cant": "style dispatch over all inputs", "anchors": ["python/aces/clf/Array.py:Array.lookup1DCubic", "python/aces/clf/ExtensionExposureContrast.py:ExposureContrast.process"]}
{"id": "C36", "title": "Pixels are processed independently", "statement": "Processing a row of pixels with a stride gives the concatenation of processing each pixel on its own, so results do not depend on neighbouring pixels or how an image is split into rows.", "quantifier": "every list of nodes, every stride, every number of pixels (false for ExposureContrast with more than three channels)", "why_tests_cant": "unbounded rows and node chains", "anchors": ["python/aces/clf/ProcessList.py:ProcessList.process"]}
{"id": "C37", "title": "A ProcessList is the composition of its nodes in order", "statement": "Processing by the concatenation of two node lists equals processing by the first and then the second (when no node is bypassed at the seam); the empty list only casts to float32.", "quantifier": "all node lists of any length", "why_tests_cant": "unbounded lists", "anchors": ["python/aces/clf/ProcessList.py:ProcessList.process", "python/aces/clf/ProcessList.py:ProcessList.addProcess"]}
{"id": "C38", "title": "Processing never alters the caller's values", "statement": "ProcessList.process leaves the caller's array unchanged whatever the nodes do to their arguments in place; a single node's process may overwrite its argument.", "quantifier": "every node list and every input array", "why_tests_cant": "aliasing through views and in-place nodes over arbitrary chains", "anchors": ["python/aces/clf/ProcessList.py:ProcessList.process", "python/aces/clf/Range.py:Range.process", "python/aces/clf/LUT1D.py:LUT1D.process"]}
{"id": "C39", "title": "A bypassed node inside a depth-consistent chain is a pure bit-depth conversion", "statement": "If consecutive nodes agree on bit depths and the Autodesk feature is enabled, bypassing an interior node gives the same result as replacing it by the bound-free Range between its own depths; with the feature disabled the bypass flag has no effect; a bypassed first or last node is skipped with no conversion.", "quantifier": "every node chain, every set of bypassed nodes", "why_tests_cant": "all subsets of bypassed nodes in all chains", "anchors": ["python/aces/clf/ProcessList.py:ProcessList.process"]}
{"id": "C40", "title": "bypass='False' in a file does not bypass the node", "statement": "A node whose bypass attribute says False is processed.", "quantifier": "every node and input", "why_tests_cant": "state reached only through reading; attribute presence versus value", "anchors": ["python/aces/clf/ProcessList.py:ProcessList.process", "python/aces/clf/ProcessNode.py:ProcessNode.read"]}
{"id": "C41", "title": "Group is equivalent to its nodes inlined", "statement": "Replacing a Group by its member nodes in the enclosing list does not change the result (when no bypass is involved).", "quantifier": "every nesting of groups, every input", "why_tests_cant": "unbounded nesting", "anchors": ["python/aces/clf/ExtensionGroup.py:Group.process"]}
{"id": "C42", "title": "Reference is equivalent to the referenced list, and a missing file is transparent", "statement": "A Reference to an existing file gives the result of the referenced ProcessList; if the file does not exist the values pass through unchanged.", "quantifier": "every file system, every referenced list, every input", "why_tests_cant": "arbitrary file contents, nested references", "anchors": ["python/aces/clf/ExtensionReference.py:Reference.process", "python/aces/clf/ExtensionReference.py:Reference.setPaths"]}
{"id": "C43", "title": "Self-contained writing removes all dependence on other files", "statement": "A ProcessList written with writeSelfContained contains no Reference elements, at any depth, and processes like the original with no other file present.", "quantifier": "every list, every file system, every nesting of references and groups", "why_tests_cant": "unbounded nesting", "anchors": ["python/aces/clf/ProcessList.py:ProcessList.write", "python/aces/clf/ExtensionReference.py:Reference.write", "python/aces/clf/ExtensionGroup.py:Group.write"]}
{"id": "C44", "title": "Processing preserves the number of values", "statement": "Whenever processing succeeds the result has exactly as many values as the input.", "quantifier": "every node list, stride and input length", "why_tests_cant": "all lists and lengths", "anchors": ["python/aces/clf/ProcessList.py:ProcessList.process"]}
{"id": "C45", "title": "Decimal array text is accurate to half a unit in the ninth decimal and stable", "statement": "Writing an array as decimal text and parsing it back changes no value by more than 0.5e-9, and writing the parsed value again gives the same text.", "quantifier": "every finite value, every array", "why_tests_cant": "all reals", "anchors": ["python/aces/clf/Array.py:Array.write", "python/aces/clf/Array.py:Array.read"]}
{"id": "C46", "title": "Bit-encoded arrays are lossless at their precision", "statement": "With integer16/32/64bit, hex16/32/64bit or rawHalfs encoding, writing and reading back returns every value rounded to the encoding's precision; values already at that precision (including infinities and signed zeros) come back bit-identical.", "quantifier": "every encoding, every value", "why_tests_cant": "2^64 bit patterns", "anchors": ["python/aces/clf/Array.py:Array.write", "python/aces/clf/Array.py:Array.read", "python/aces/clf/Common.py:halfToUInt16", "python/aces/clf/Common.py:doubleToHex"]}
{"id": "C47", "title": "Float and integer bit casts are inverse", "statement": "Converting a 16/32/64-bit integer to a float of that width and back returns the integer for every non-NaN pattern, and converting a float of that width to an integer or hex string and back returns the float.", "quantifier": "every bit pattern of each width", "why_tests_cant": "2^64 patterns", "anchors": ["python/aces/clf/Common.py:uint16ToHalf", "python/aces/clf/Common.py:halfToUInt16", "python/aces/clf/Common.py:halfToHex", "python/aces/clf/Common.py:hexToHalf"]}
{"id": "C48", "title": "Array writing is complete exactly when the value count is a multiple of the row length", "statement": "Writing then reading an array returns all its values if the count is a multiple of the row length given by its dimensions; otherwise the trailing partial row is silently lost.", "quantifier": "every dimension list and value list", "why_tests_cant": "unbounded arrays", "anchors": ["python/aces/clf/Array.py:Array.write"]}
{"id": "C49", "title": "IndexMap survives writing and reading", "statement": "Writing and reading an IndexMap returns the same map.", "quantifier": "every index map", "why_tests_cant": "all values", "anchors": ["python/aces/clf/IndexMap.py:IndexMap.write", "python/aces/clf/IndexMap.py:IndexMap.read"]}
{"id": "C50", "title": "A ProcessList survives writing and reading", "statement": "Writing any ProcessList to its XML tree and reading the tree back yields the same nodes in the same order with the same attributes, parameters, descriptions and nested groups (numbers through their text form).", "quantifier": "every process list of any length and nesting", "why_tests_cant": "recursive structure of unbounded size", "anchors": ["python/aces/clf/ProcessList.py:ProcessList.write", "python/aces/clf/ProcessList.py:ProcessList.read", "python/aces/clf/ProcessNode.py:ProcessNode.write", "python/aces/clf/ProcessNode.py:ProcessNode.read"]}
{"id": "C51", "title": "Reading reports the same error whether or not the file is compressed", "statement": "Reading a gzipped document and the same document uncompressed gives the same result, including the same error in strict mode.", "quantifier": "every document and mask", "why_tests_cant": "depends on exception flow for all documents", "anchors": ["python/aces/clf/ProcessList.py:ProcessList.readFile"]}
{"id": "C52", "title": "LUT format selection is independent of registration order", "statement": "For every file extension, in any letter case, the format chosen for reading or writing does not depend on the order in which formats are enumerated, and an extension no format supports yields no result and writes nothing.", "quantifier": "every extension string and every permutation of formats", "why_tests_cant": "dictionary order is unspecified", "anchors": ["python/aces/lutFormats/Registry.py:Registry.read", "python/aces/lutFormats/Registry.py:Registry.write", "python/aces/lutFormats/LutFormat.py:LutFormat"]}
{"id": "C53", "title": "SPI 1D tables survive writing and reading", "statement": "Reading a written .spi1d file gives back the samples, the channel count and the input range.", "quantifier": "every table, range and channel count 1-3", "why_tests_cant": "unbounded tables", "anchors": ["python/aces/lutFormats/LutSPI.py:writeSPI1D", "python/aces/lutFormats/LutSPI.py:readSPI1D"]}
{"id": "C54", "title": "SPI 3D tables survive writing and reading", "statement": "Reading a written .spi3d file gives a LUT holding sample (r,g,b) at lattice point (r,g,b).", "quantifier": "every cube size and table", "why_tests_cant": "unbounded tables", "anchors": ["python/aces/lutFormats/LutSPI.py:writeSPI3D", "python/aces/lutFormats/LutSPI.py:readSPI3D"]}
{"id": "C55", "title": "CSP 3D ordering conversion is a bijection that preserves the colour at every lattice point", "statement": "Reading a CSP cube places the entry of CSP position r+n*(g+n*b) at CLF lattice point (r,g,b), so writing a cube to CSP and reading it back returns the same cube.", "quantifier": "every cube size and table", "why_tests_cant": "unbounded tables", "anchors": ["python/aces/lutFormats/LutCSP.py:readCSP", "python/aces/lutFormats/LutCSP.py:writeCSP3D"]}
{"id": "C56", "title": "Inverting a 1D LUT through index maps is exact", "statement": "For strictly increasing samples, the inverse built from index maps undoes the forward LUT on its domain and the forward LUT undoes the inverse on the output range.", "quantifier": "every strictly increasing table, domain and value", "why_tests_cant": "all tables and values", "anchors": ["python/aces/lutFormats/Sampling.py:generateLUT1DInverseIndexMap"]}
{"id": "C57", "title": "The half-domain inverse of a 1D LUT honours the LUT's input range", "statement": "The half-domain inverse returns, for each half value produced by the forward LUT, the input that produced it, for every input range [minIn, maxIn].", "quantifier": "every table and input range", "why_tests_cant": "all tables and ranges", "anchors": ["python/aces/lutFormats/Sampling.py:generateLUT1DInverseHalfDomain"]}
{"id": "C58", "title": "Sampling covers the requested interval exactly", "statement": "1D sampling of a ProcessList with resolution n evaluates it at n equally spaced points whose first is inputMin and last is inputMax; 3D sampling evaluates the full lattice with element [r][g][b] at the corresponding point.", "quantifier": "every resolution >= 2, range and process list", "why_tests_cant": "all resolutions and lists", "anchors": ["python/aces/lutFormats/Sampling.py:sample1D", "python/aces/lutFormats/Sampling.py:sample3D"]}
{"id": "C59", "title": "Shaper and inverse shaper undo each other", "statement": "For linear and log2 shapers, the inverse shaper returns every value in the shaper's range that the shaper was applied to.", "quantifier": "every shaper range and value in it", "why_tests_cant": "all values", "anchors": ["python/aces/lutFormats/Sampling.py:createShaper"]}
{"id": "C60", "title": "The sampled 1D-3D-1D output shaper undoes the encoding used for the cube outputs", "statement": "In a 1D-3D-1D sampling the output curve decodes with the inverse of the output shaper that was used to encode the cube values.", "quantifier": "every pair of input and output shapers", "why_tests_cant": "all shaper parameters", "anchors": ["python/aces/lutFormats/Sampling.py:sample1D3D1D"]}
{"id": "C61", "title": "The CLF written for a shaped 3D LUT applies the input shaper forwards", "statement": "The first stage of the written CLF maps a value x of the input range to shaper(x).", "quantifier": "every shaper and value", "why_tests_cant": "all shapers", "anchors": ["python/aces/lutFormats/LutCLF.py:writeCLF1D3D1D", "python/aces/lutFormats/Sampling.py:generateLUT1DInverseIndexMap"]}
{"id": "C62", "title": "Written CTL 1D curves carry each channel's own samples", "statement": "In a 1D LUT written as CTL the table for channel c holds the samples of channel c.", "quantifier": "every table and channel count", "why_tests_cant": "all tables", "anchors": ["python/aces/lutFormats/LutCTL.py:writeCTL1D"]}
{"id": "C63", "title": "OCIO matrix conversion preserves the transform", "statement": "Converting a 4x4 OCIO matrix with offset to a node gives a node that maps RGB exactly as the OCIO matrix does.", "quantifier": "every 16-element matrix and 4-element offset", "why_tests_cant": "all matrices", "anchors": ["python/aces/convertOCIOtoCLF.py:convertMatrixToProcessNode"]}
{"id": "C64", "title": "OCIO transform lists convert in order", "statement": "Converting a list of transforms (including nested groups) yields the concatenation of the conversions of its elements in order.", "quantifier": "every transform list and nesting", "why_tests_cant": "unbounded nesting", "anchors": ["python/aces/convertOCIOtoCLF.py:convertTransformsToProcessNodes"]}
{"id": "C65", "title": "Parallel image filtering equals sequential filtering", "statement": "Filtering an image with worker processes gives the same image as filtering its rows one after another, for every completion order of the workers.", "quantifier": "every image, every schedule and worker count", "why_tests_cant": "schedules", "anchors": ["python/aces/filterImageWithCLF.py:filterImageWithCLF", "python/aces/filterImageWithCLF.py:filterRow_parallel"]}
{"id": "C66", "title": "Single-threaded filtering processes every row", "statement": "With multithreading off, every pixel row of the output is the filtered input row.", "quantifier": "every image size and process list", "why_tests_cant": "all image heights", "anchors": ["python/aces/filterImageWithCLF.py:filterImageWithCLF"]}
{"id": "C67", "title": "Packed integer pixels survive reading and writing", "statement": "Reading integer samples stored in the high bits of 16-bit words and writing them back unprocessed returns the stored words, for every bit width.", "quantifier": "every sample and bit width 1..16", "why_tests_cant": "all samples", "anchors": ["python/aces/filterImageWithCLF.py:readPixelArray", "python/aces/filterImageWithCLF.py:writePixelArray"]}
{"id": "C68", "title": "List accessors reflect the history of additions", "statement": "After any sequence of addProcess, setInBitDepth, setOutBitDepth and setAttribute calls, iteration yields nodes in the order added, getProcess returns the first with the name, and the list's in/out depth is that of its first/last node.", "quantifier": "every call sequence", "why_tests_cant": "unbounded histories", "anchors": ["python/aces/clf/ProcessList.py:ProcessList.addProcess", "python/aces/clf/ProcessList.py:ProcessList.getProcess", "python/aces/clf/ProcessList.py:ProcessList.setInBitDepth"]}
{"id": "C69", "title": "Building a 3D LUT does not modify the caller's dimension list", "statement": "Setting a 3D LUT array leaves the dimension list passed in unchanged, so it can be reused.", "quantifier": "every dimension list and number of uses", "why_tests_cant": "call histories with aliasing", "anchors": ["python/aces/clf/LUT3D.py:LUT3D.setArray", "python/aces/clf/LUT3D.py:simple3DLUT"]}
{"id": "C70", "title": "Element names match regardless of namespace, hyphens and underscores", "statement": "The element type found for a tag is the tag without its XML namespace, '-' and '_', so documents using any namespace prefix or ASC_CDL / ASC-CDL spelling read alike.", "quantifier": "every tag string", "why_tests_cant": "all strings", "anchors": ["python/aces/clf/ProcessList.py:ProcessList.getElementType", "python/aces/clf/ProcessNode.py:ProcessNode.getElementType"]}
{"id": "C71", "title": "CDL vendor styles are rejected when the feature is disabled", "statement": "With the Autodesk feature disabled, processing three or more channels by a CDL whose style is an Autodesk keyword raises UnsupportedExtensionError and never returns values; all other styles are unaffected by the feature mask.", "quantifier": "every mask, style and input", "why_tests_cant": "all masks and inputs", "anchors": ["python/aces/clf/ASCCDL.py:ASCCDL.process"]}
{"id": "C72", "title": "Reference cycles make reading fail to terminate normally", "statement": "Reading a document that references itself (directly or through other files) never returns a ProcessList.", "quantifier": "every file system with a cycle", "why_tests_cant": "unbounded recursion", "anchors": ["python/aces/clf/ExtensionReference.py:Reference.setPaths", "python/aces/clf/ProcessList.py:ProcessList.readFile"]}
{"id": "C73", "title": "Images of every height can be filtered", "statement": "Filtering succeeds for every image with at least one row.", "quantifier": "every image height, width and channel count", "why_tests_cant": "all image sizes; the failing height is a boundary value", "anchors": ["python/aces/filterImageWithCLF.py:filterRow_parallel", "python/aces/filterImageWithCLF.py:filterImageWithCLF"]}
{"id": "C74", "title": "Interpolating lookups return stored infinite samples", "statement": "A LUT whose table holds an infinite entry returns that entry at its own sample position.", "quantifier": "every table and sample position, infinite entries included", "why_tests_cant": "special values inside tables (e.g. sampled logarithms) are rarely tested", "anchors": ["python/aces/clf/Array.py:Array.lookup1DLinear", "python/aces/clf/Array.py:Array.lookup1DHalfDomainInterpolated"]}
{"id": "C75", "title": "CSP preluts read as the curve they describe", "statement": "A CSP prelut with identical input ranges per channel is converted to nodes that evaluate, at every resampled position, the piecewise-linear prelut curve.", "quantifier": "every prelut with strictly increasing inputs", "why_tests_cant": "unbounded curves", "anchors": ["python/aces/lutFormats/LutCSP.py:LutFormatCSP.generateCLFPrelut"]}
{"id": "C76", "title": "Two-channel 1D tables address the entry of their channel", "statement": "At position k/(n-1) the linear 1D LUT with a two-column table returns, in channel ch, the entry of row k and column ch.", "quantifier": "every two-column table, every row, channels 0 and 1", "why_tests_cant": "The shipped LUTs have one or three columns, so no test exercises the branch; the wrong address is in range and yields a plausible number.", "anchors": ["python/aces/clf/Array.py:325-345"]}
{"id": "C77", "title": "A Range with bounds on one side shifts and clamps on that side only", "statement": "A Range that sets minInValue and minOutValue but not both upper bounds maps x so that minInValue goes to minOutValue and distances relative to full scale are kept, and clamps, if at all, only from below at minOutValue; symmetrically for the upper bounds. A Range with defaultRange and no bounds behaves as one whose bounds are 0 and full scale.", "quantifier": "every bound pair, every bit-depth pair, every finite input", "why_tests_cant": "all values and all bound combinations", "anchors": ["python/aces/clf/Range.py:Range.process"]}
{"id": "C78", "title": "Extra matrix columns beyond the offset are ignored", "statement": "An n x m Matrix with m >= n and m != n+1 maps every pixel by its first n columns, without an offset, and returns further channels unchanged.", "quantifier": "every n, m, matrix, stride and number of pixels", "why_tests_cant": "dimensions are unbounded and no shipped file has such a matrix", "anchors": ["python/aces/clf/Matrix.py:Matrix.process"]}
{"id": "C79", "title": "1D-3D-1D sampling evaluates the shaped list on the lattice", "statement": "The cube entry [r][g][b] of a 1D-3D-1D sampling is the output shaper applied to the process list applied to the inverse of the input shaper at lattice point (r,g,b) of the unit cube; shapers that are not requested are left out; the input curve holds the input shaper evaluated at equally spaced points of its range.", "quantifier": "every process list, resolution and shaper pair", "why_tests_cant": "all lists, resolutions and shaper parameters", "anchors": ["python/aces/lutFormats/Sampling.py:sample1D3D1D"]}
{"id": "C80", "title": "The resampled inverse of a 1D LUT is exact at its sample points", "statement": "For a table with strictly increasing columns, the resampled inverse returns, at each of its own equally spaced sample values that the column reaches, the input the forward curve takes to that value; between those values it need not.", "quantifier": "every increasing table, input range and pixel array", "why_tests_cant": "all tables, sizes and ranges", "anchors": ["python/aces/lutFormats/Sampling.py:generateLUT1DInverseResampled"]}
{"id": "C81", "title": "A transform written as CLF without shapers gives its own colours at lattice points", "statement": "Sampling a process list without shapers and writing it as CLF gives a process list that maps every lattice point of the unit cube to the colour the original list gives there.", "quantifier": "every process list, resolution and lattice point", "why_tests_cant": "all lists, resolutions and lattice points", "anchors": ["python/aces/lutFormats/LutCLF.py:LutFormatCLF.writeCLF1D3D1D", "python/aces/lutFormats/Sampling.py:sample1D3D1D"]}
{"id": "C82", "title": "The CTL program written for a cube declares the cube in red, green, blue order", "statement": "Apart from white space, the CTL program written for a cube declares cube[r][g][b] with the samples of entry (r,g,b) rounded to six decimals.", "quantifier": "every cube size, sample and input range", "why_tests_cant": "all cubes", "anchors": ["python/aces/lutFormats/LutCTL.py:LutFormatCTL.writeCTL3D"]}
{"id": "C83", "title": "A transform converted to a LUT file through the registry and read back gives its own colours at the sample points", "statement": "Writing a process list to a .spi1d, .csp or .spi3d path through the registry, and reading that path back, gives a process list with the original colours at the sampled points (grey grid in 1D, lattice in 3D), provided the text of the samples holds their values.", "quantifier": "every process list, path, resolution, range, registration order and sample point", "why_tests_cant": "all lists, paths, resolutions and ranges", "anchors": ["python/aces/lutFormats/Registry.py:Registry.write", "python/aces/lutFormats/Registry.py:Registry.read", "python/aces/lutFormats/LutFormat.py:LutFormat.write", "python/aces/lutFormats/LutSPI.py:LutFormatSPI.writeSPI3D"]}
{"id": "C84", "title": "1D CSP tables survive writing and reading", "statement": "A one-dimensional table written as CSP and read back gives the same input range and the same samples in every channel.", "quantifier": "every table size, channel count, sample value and range", "why_tests_cant": "all tables and ranges", "anchors": ["python/aces/lutFormats/LutCSP.py:LutFormatCSP.writeCSP1D", "python/aces/lutFormats/LutCSP.py:LutFormatCSP.readCSP"]}
{"id": "C85", "title": "An inverse OCIO transform converts to the inverse of the forward transform", "statement": "Converting a transform with the inverse direction gives nodes that undo the nodes of the forward transform.", "quantifier": "every file, log, matrix and group transform", "why_tests_cant": "all transforms; directions of nested groups", "anchors": ["python/aces/convertOCIOtoCLF.py:convertMatrixToProcessNode", "python/aces/convertOCIOtoCLF.py:convertLogToProcessNode", "python/aces/convertOCIOtoCLF.py:convertTransformsToProcessNodes"]}
{"id": "C86", "title": "Filtering with an empty list returns the image", "statement": "Filtering an image with an empty process list, without changing the bit depth, writes the values of the image unchanged, although integers are divided by the full scale, stored as float32, multiplied back and truncated.", "quantifier": "every image of 8, 10, 12 or 16 bits, half or float, every size from two rows on, every worker schedule", "why_tests_cant": "one integer whose product rounds below itself would lose a level; all integers and all schedules", "anchors": ["python/aces/filterImageWithCLF.py:filterImageWithCLF", "python/aces/filterImageWithCLF.py:writePixelArray", "python/aces/clf/Range.py:process", "python/aces/clf/ProcessNode.py:bitDepthToNormalized"]}
{"id": "C87", "title": "Converting an image to a deeper format and back returns it", "statement": "Filtering an integer image with an empty list to a deeper bit depth, and filtering the result with an empty list back to its own bit depth, returns the samples.", "quantifier": "every image, deeper bit depth, number of workers and schedule, with results rounded to float32 (directly or by way of float64)", "why_tests_cant": "all sample values under rounded arithmetic", "anchors": ["python/aces/filterImageWithCLF.py:filterImageWithCLF", "python/aces/filterImageWithCLF.py:writePixelArray", "python/aces/clf/ProcessNode.py:normalizedToBitDepth"]}
{"id": "C88", "title": "Integer output is limited to the range of its bit depth", "statement": "A filtered value above the largest code of an integer output depth is written as the largest code, one below 0 as 0, and one in range as its integer part.", "quantifier": "every value and integer bit depth", "why_tests_cant": "all values", "anchors": ["python/aces/filterImageWithCLF.py:writePixelArray"]}
{"id": "C89", "title": "A row that cannot be filtered is reported", "statement": "If processing some row raises, filterImageWithCLF raises too.", "quantifier": "every image, list, number of workers and schedule", "why_tests_cant": "all failing rows and schedules", "anchors": ["python/aces/filterImageWithCLF.py:filterRow_parallel_splitargs", "python/aces/filterImageWithCLF.py:filterImageWithCLF"]}
{"id": "C90", "title": "Colours depend on the colour data only", "statement": "Two process lists whose nodes agree in class, parameters, bit depths, style attributes, value elements, last table and index maps give the same result, or raise the same error, for every image; names, ids, descriptions, comments, info, dynamic parameters, other attributes, the file encoding of tables, replaced tables and the write flag of references play no role, at any nesting depth.", "quantifier": "every pair of lists related node by node, every image, stride, rounding and feature mask", "why_tests_cant": "all pairs of lists", "anchors": ["python/aces/clf/ProcessList.py:process", "python/aces/clf/ExtensionGroup.py:process", "python/aces/clf/ExtensionReference.py:process", "python/aces/clf/LUT1D.py:process"]}
{"id": "C91", "title": "A list processes the same after writing and reading", "statement": "Writing a process list to a file and reading the file gives a list with the same result for every image.", "quantifier": "every list, image, stride and feature mask", "why_tests_cant": "all lists and images", "anchors": ["python/aces/clf/ProcessList.py:writeFile", "python/aces/clf/ProcessList.py:readFile", "python/aces/clf/ProcessList.py:process", "python/aces/clf/Array.py:write"]}
{"id": "C92", "title": "Nine decimals change the colours of a table by at most half a unit", "statement": "A linear LUT1D or a trilinear or tetrahedral LUT3D of finite values, written as decimals and read back, gives results within 0.5e-9 of the original for every image; a square matrix within 0.5e-9 times the sum of the magnitudes of the pixel's channels.", "quantifier": "every table, image and stride, with exact arithmetic", "why_tests_cant": "all tables and images", "anchors": ["python/aces/clf/Array.py:write", "python/aces/clf/Array.py:read", "python/aces/clf/LUT1D.py:process", "python/aces/clf/LUT3D.py:process", "python/aces/clf/Matrix.py:process"]}
{"id": "C93", "title": "--lutResolution3d sets the side of the cube", "statement": "convertCLFtoLUT.py writes a 3D table with as many entries per side as --lutResolution3d says.", "quantifier": "every CLF file, option set and sampling range", "why_tests_cant": "all files and resolutions", "anchors": ["python/aces/convertCLFtoLUT.py:main", "python/aces/lutFormats/Sampling.py:sample3D", "python/aces/lutFormats/LutSPI.py:writeSPI3D"]}
{"id": "C94", "title": "Options for other kinds of tables do not matter", "statement": "What convertCLFtoLUT.py writes depends, besides the paths and the sampling range, only on the options of the kind of table chosen; 1D is chosen before 3D before 1D-3D-1D, 1D if none is asked for, and of repeated options only the first matters; a 1D-3D-1D conversion samples with the shapers and sizes given, each in its place.", "quantifier": "every pair of option sets that agree on the kind chosen and its options, every CLF file and set of formats", "why_tests_cant": "pairs of option sets are unbounded", "anchors": ["python/aces/convertCLFtoLUT.py:main", "python/aces/lutFormats/LutFormat.py:write", "python/aces/lutFormats/Registry.py:write"]}
{"id": "C95", "title": "--format sets the format of the file", "statement": "convertCLFtoLUT.py writes a file in the format that --format names.", "quantifier": "every CLF file, path and format", "why_tests_cant": "all paths and formats", "anchors": ["python/aces/convertCLFtoLUT.py:main", "python/aces/convertCLFtoLUT.py:convertCLFtoLUT", "python/aces/lutFormats/Registry.py:write"]}
{"id": "C96", "title": "The help texts list the supported formats", "statement": "The formats listed by convertCLFtoLUT.py and convertLUTtoCLF.py are exactly those that the registry reads or writes in the way listed, each listed once, whatever the order of registration.", "quantifier": "every path, every order of the registered classes, every list of nodes", "why_tests_cant": "all paths and registration orders", "anchors": ["python/aces/convertCLFtoLUT.py:main", "python/aces/convertLUTtoCLF.py:main", "python/aces/lutFormats/Registry.py:read", "python/aces/lutFormats/Registry.py:write"]}
{"id": "C97", "title": "convertLUTtoCLF.py keeps colours", "statement": "The file that convertLUTtoCLF.py writes, read back, processes every image like the nodes read from the LUT file.", "quantifier": "every LUT file, option set and image", "why_tests_cant": "all files and images", "anchors": ["python/aces/convertLUTtoCLF.py:main", "python/aces/lutFormats/Registry.py:read", "python/aces/lutFormats/LutSPI.py:readSPI1D", "python/aces/lutFormats/LutSPI.py:readSPI3D", "python/aces/clf/ProcessList.py:writeFile", "python/aces/clf/ProcessList.py:readFile"]}
{"id": "C98", "title": "filterImageWithCLF.py uses the processes asked for, and filters every row", "statement": "The number of processes is the one asked for, limited to one at least and the number of CPUs at most; whatever it is, every row of the image is filtered by the CLF file.", "quantifier": "every machine, option set, CLF file, image and schedule of the processes", "why_tests_cant": "all schedules and images", "anchors": ["python/aces/filterImageWithCLF.py:main", "python/aces/filterImageWithCLF.py:filterImageWithCLF"]}
{"id": "C99", "title": "An invalid output bit depth is ignored", "statement": "If the output bit depth of filterImageWithCLF.py is invalid, it is ignored, as the message printed says, and the image is written as without the option.", "quantifier": "every text, option set, CLF file and image", "why_tests_cant": "all texts", "anchors": ["python/aces/filterImageWithCLF.py:main"]}
{"id": "C100", "title": "convertOCIOtoCLF.py keeps colours and order", "statement": "The file that convertOCIOtoCLF.py writes, read back, processes every image by the transforms of the source spaces to the reference and then those of the destination spaces from it, in the order in which the spaces were given; nothing is written if a space is unknown or there are no nodes.", "quantifier": "every configuration, option set and image", "why_tests_cant": "all configurations and images", "anchors": ["python/aces/convertOCIOtoCLF.py:main", "python/aces/convertOCIOtoCLF.py:convertOCIOtoCLF", "python/aces/convertOCIOtoCLF.py:convertTransformsToProcessNodes", "python/aces/clf/ProcessList.py:writeFile", "python/aces/clf/ProcessList.py:readFile"]}
{"id": "C101", "title": "Packed half-floats come back", "statement": "Half-float values that are packed for OpenImageIO and unpacked again are the same values, whichever version of the library is used and whether or not NaNs became quiet in between.", "quantifier": "every list of values, version of the library and pattern of quieted NaNs", "why_tests_cant": "lists of values are unbounded, and every pair of 16-bit patterns shares a float", "anchors": ["python/aces/filterImageWithCLF.py:floatToHalfs", "python/aces/filterImageWithCLF.py:halfsToFloat", "python/aces/filterImageWithCLF.py:oiioFloatPixelsToNPHalfArray", "python/aces/filterImageWithCLF.py:npHalfArrayToOIIOFloatPixels"]}
{"id": "C102", "title": "printInfo shows the parameters in effect", "statement": "printInfo of a node shows its attributes, value elements, dynamic parameters and elements, the parameters that processing uses for each channel, and everything that is shown for the nodes within it.", "quantifier": "every node, at any depth of groups and references", "why_tests_cant": "parameter rows, attributes and nesting are unbounded", "anchors": ["python/aces/clf/ProcessNode.py:printInfo", "python/aces/clf/ASCCDL.py:printInfoChild", "python/aces/clf/ExtensionExposureContrast.py:printInfoChild", "python/aces/clf/ExtensionGamma.py:printInfoChild", "python/aces/clf/ExtensionLog.py:printInfoChild", "python/aces/clf/ExtensionGroup.py:printInfoChild", "python/aces/clf/ExtensionReference.py:printInfoChild", "python/aces/clf/Info.py:printInfo", "python/aces/clf/Comment.py:printInfo"]}
{"id": "C103", "title": "printInfo shows the rows of tables and the pairs of index maps", "statement": "printInfo of a table shows all rows of up to ten, and else the first and last three, each number to within half of the ninth decimal; printInfo of an index map shows all of up to fourteen pairs, and else the first and last three.", "quantifier": "every well-formed 1D, 3D or matrix table and every index map with as many inputs as outputs", "why_tests_cant": "table sizes and values are unbounded", "anchors": ["python/aces/clf/Array.py:printInfo", "python/aces/clf/IndexMap.py:printInfo"]}
{"id": "C104", "title": "printInfo never fails", "statement": "Every list that has been read can be printed.", "quantifier": "every list of nodes", "why_tests_cant": "lists are unbounded", "anchors": ["python/aces/clf/ProcessList.py:printInfo", "python/aces/clf/ProcessNode.py:printInfo", "python/aces/clf/Array.py:printInfo", "python/aces/clf/IndexMap.py:printInfo"]}
{"id": "C105", "title": "Getters of a node give what was set last", "statement": "After any sequence of setter calls on a node, getAttribute, getValueElement, getDynamicParam, getLUTDimensions, getLUTValues, getIndexMapDimensions and getIndexMapValues give what the last call that sets the same thing has set, and what was there before if there is none.", "quantifier": "every node and every sequence of setter calls", "why_tests_cant": "call sequences are unbounded", "anchors": ["python/aces/clf/ProcessNode.py:setAttribute", "python/aces/clf/ProcessNode.py:getAttribute", "python/aces/clf/ProcessNode.py:addValueElement", "python/aces/clf/ProcessNode.py:getValueElement", "python/aces/clf/ProcessNode.py:setDynamicParam", "python/aces/clf/ProcessNode.py:getDynamicParam", "python/aces/clf/ProcessNode.py:setInBitDepth", "python/aces/clf/ProcessNode.py:setOutBitDepth", "python/aces/clf/Range.py:setStyle", "python/aces/clf/Range.py:setDefaultRange", "python/aces/clf/LUT1D.py:setArray", "python/aces/clf/LUT1D.py:setIndexMaps", "python/aces/clf/LUT1D.py:getIndexMapDimensions", "python/aces/clf/LUT3D.py:setArray", "python/aces/clf/LUT3D.py:getIndexMapDimensions", "python/aces/clf/Matrix.py:setMatrix"]}
{"id": "C106", "title": "Bit depths and table may be set in either order", "statement": "Setting a bit depth of a node before or after its table leaves nodes that cannot be told apart, in particular that are written to the same file.", "quantifier": "every node, table and bit depth", "why_tests_cant": "tables and depths are unbounded", "anchors": ["python/aces/clf/ProcessNode.py:setInBitDepth", "python/aces/clf/ProcessNode.py:setOutBitDepth", "python/aces/clf/LUT1D.py:setArray", "python/aces/clf/LUT3D.py:setArray", "python/aces/clf/Matrix.py:setMatrix", "python/aces/clf/Array.py:write"]}
{"id": "C107", "title": "Line ends of LUT files do not matter", "statement": "A LUT file gives the same nodes, or the same error, whether its lines end as on Unix, Windows or old Macintosh systems.", "quantifier": "every file, path, choice of options and order of the registered formats", "why_tests_cant": "files are unbounded", "anchors": ["python/aces/lutFormats/LutSPI.py:readSPI1D", "python/aces/lutFormats/LutSPI.py:readSPI3D", "python/aces/lutFormats/LutCSP.py:readCSP", "python/aces/lutFormats/Registry.py:read"]}
{"id": "C108", "title": "LUT files of another version are refused", "statement": "A LUT file that says it has another version than the one the reader knows is not read.", "quantifier": "every file, and every way of reading it", "why_tests_cant": "files are unbounded", "anchors": ["python/aces/lutFormats/LutSPI.py:readSPI1D", "python/aces/lutFormats/LutSPI.py:readSPI3D", "python/aces/lutFormats/LutCSP.py:readCSP"]}
{"id": "C109", "title": "Shaped CSP cubes survive writing and reading", "statement": "A cube behind an input shaper that is written as CSP and read back maps a colour through the shaper and then through the cube.", "quantifier": "every shaper, range, cube and colour", "why_tests_cant": "shapers, cubes and colours are unbounded", "anchors": ["python/aces/lutFormats/LutCSP.py:writeCSP1D3D", "python/aces/lutFormats/LutCSP.py:readCSP"]}
{"id": "C110", "title": "Running a written CTL program looks every channel up", "statement": "The function main of a written CTL program sends each colour channel through the table written for it, or the colour through the cube, between the limits of the sampling, and leaves alpha as it is.", "quantifier": "every table, cube, range, number of components and colour, and every meaning of the lookup functions", "why_tests_cant": "programs and colours are unbounded", "anchors": ["python/aces/lutFormats/LutCTL.py:writeCTL1D", "python/aces/lutFormats/LutCTL.py:writeCTL3D"]}
{"id": "C111", "title": "Format classes can do what they say", "statement": "A format class says that it can read, or write in some style, with an extension if and only if the capability is listed for the extension, whatever its letter case, and without an extension if it can with some extension; the shipped classes write a file exactly in the styles that they list, and read some file exactly if they list reading.", "quantifier": "every class, capability, extension, list of nodes and arguments", "why_tests_cant": "extensions, lists and files are unbounded", "anchors": ["python/aces/lutFormats/LutFormat.py:capabilities", "python/aces/lutFormats/LutFormat.py:isCapable", "python/aces/lutFormats/LutFormat.py:canRead", "python/aces/lutFormats/LutFormat.py:canWrite1D", "python/aces/lutFormats/LutFormat.py:canWrite3D", "python/aces/lutFormats/LutFormat.py:canWrite1D3D1D"]}
{"id": "C112", "title": "File transforms are read from the search path", "statement": "A file transform of an OCIO configuration is read from its path if it is absolute, and otherwise from the directories of the search path, which are relative to the directory of the configuration.", "quantifier": "every path of a configuration, search path, path of a transform and file", "why_tests_cant": "paths are unbounded", "anchors": ["python/aces/convertOCIOtoCLF.py:convertOCIOtoCLF", "python/aces/convertOCIOtoCLF.py:convertTransformsToProcessNodes"]}
{"id": "C113", "title": "Filtered images keep their metadata", "statement": "The image that filterImageWithCLF writes has the attributes of its source, except that the number of bits per sample is that of the output, and that the compression and its quality are those of the options, if they are given.", "quantifier": "every list of attributes, output bit depth, compression and quality", "why_tests_cant": "attributes are unbounded", "anchors": ["python/aces/filterImageWithCLF.py:writePixelArray"]}
{"id": "C114", "title": "A cached index map is the index map", "statement": "With its cache switched on, an index map gives for every number what it gives with the cache off.", "quantifier": "every index map and every number, infinity and NaN", "why_tests_cant": "the cache has 65536 entries; positions and maps are unbounded", "anchors": ["python/aces/clf/IndexMap.py:_createCachedProcess", "python/aces/clf/IndexMap.py:process", "python/aces/clf/IndexMap.py:_processRaw", "python/aces/clf/Array.py:lookup1DHalfDomainInterpolated"]}
{"id": "C115", "title": "An index map uses the values set last", "statement": "After every sequence of setDimension, setValues, setuseCachedProcess, read and process, an index map holds what was set last and evaluates with it.", "quantifier": "every sequence of calls and every values", "why_tests_cant": "sequences of calls are unbounded", "anchors": ["python/aces/clf/IndexMap.py:setValues", "python/aces/clf/IndexMap.py:setDimension", "python/aces/clf/IndexMap.py:setuseCachedProcess", "python/aces/clf/IndexMap.py:read", "python/aces/clf/IndexMap.py:process", "python/aces/clf/IndexMap.py:_createCachedProcess"]}
{"id": "C116", "title": "A written document is read as the document", "statement": "The text that writeFile makes of a document reads back as the same document: elements, order, attributes and texts.", "quantifier": "every document", "why_tests_cant": "texts, names and depths are unbounded; tests use plain texts", "anchors": ["python/aces/clf/ProcessList.py:xmlPrettify", "python/aces/clf/ProcessList.py:writeFile", "python/aces/clf/ProcessList.py:readFile"]}
{"id": "C117", "title": "A ProcessList survives the characters of a file", "statement": "Writing a list to a file and reading the characters of the file gives the same list.", "quantifier": "every list with plain texts that has a place in the document", "why_tests_cant": "lists, tables and texts are unbounded", "anchors": ["python/aces/clf/ProcessList.py:writeFile", "python/aces/clf/ProcessList.py:xmlPrettify", "python/aces/clf/ProcessList.py:readFile", "python/aces/clf/ProcessList.py:write", "python/aces/clf/ProcessList.py:read"]}
{"id": "C118", "title": "A failing writeFile leaves the file as it was", "statement": "When writeFile raises an error, the file holds what it held before.", "quantifier": "every list, every text, every earlier content", "why_tests_cant": "needs every character at every place", "anchors": ["python/aces/clf/ProcessList.py:writeFile", "python/aces/clf/ProcessList.py:xmlPrettify"]}
{"id": "C119", "title": "No unreadable file is written", "statement": "Characters that XML does not allow are refused before the file is touched; what is written without an error is read as the document.", "quantifier": "every list and every character", "why_tests_cant": "needs every character at every place", "anchors": ["python/aces/clf/ProcessList.py:writeFile", "python/aces/clf/ProcessList.py:xmlPrettify", "python/aces/clf/ProcessList.py:readFile"]}
{"id": "C120", "title": "Line ends do not matter in CLF files", "statement": "A CLF file reads the same whatever its line ends are, even mixed ones.", "quantifier": "every text, well formed or not", "why_tests_cant": "texts and mixtures of line ends are unbounded", "anchors": ["python/aces/clf/ProcessList.py:readFile"]}
{"id": "C121", "title": "Declaring a namespace changes nothing that is read", "statement": "A written file with a default namespace declared in its first tag reads the same, errors included.", "quantifier": "every document and every name of a namespace", "why_tests_cant": "documents and names are unbounded", "anchors": ["python/aces/clf/ProcessList.py:readFile", "python/aces/clf/ProcessList.py:getElementType", "python/aces/clf/ProcessList.py:read"]}
{"id": "C122", "title": "A linear 1D LUT keeps its range and accuracy in IEEE arithmetic", "statement": "With every operation rounded to float32 or float64, a linear 1D LUT of float32 entries gives finite values between two entries of the column, the first entry at and below 0, the last at and above full scale, and in between differs from the exact interpolation by at most (J m + B)/2^23 + 2^-150 (J largest step, B largest entry, m+1 entries); infinities and NaN stay.", "quantifier": "every table, every depth, every image of float32 values", "why_tests_cant": "rounding errors depend on every bit of every value; tests compare with a tolerance on samples", "anchors": ["python/aces/clf/LUT1D.py:process", "python/aces/clf/Array.py:lookup1DLinear", "python/aces/clf/Array.py:lookup1D", "python/aces/clf/ProcessNode.py:bitDepthToNormalized", "python/aces/clf/ProcessNode.py:normalizedToBitDepth"]}
{"id": "C123", "title": "A code value that hits an entry gives the entry", "statement": "An integer code value whose position in a 1D LUT is exactly an entry gives exactly this entry.", "quantifier": "every table, every integer depth", "why_tests_cant": "fails only for some positions of some decreasing tables, by the last bit", "anchors": ["python/aces/clf/LUT1D.py:process", "python/aces/clf/Array.py:lookup1DLinear", "python/aces/filterImageWithCLF.py:filterImageWithCLF"]}
{"id": "C124", "title": "Cubes keep their range and accuracy in IEEE arithmetic", "statement": "With every operation rounded, a 3D LUT of float32 entries gives for every pixel finite values between two entries of the channel; at positions on which no rounding acts (both ends, and every lattice point of a cube of 2^n+1 entries for float depths) it gives the entry; trilinear and tetrahedral interpolation differ from the exact ones by at most (3 J m + B)/2^23 + 2^-150, tetrahedral whichever way ties between the fractions are broken and in whichever cell a boundary position is taken to lie.", "quantifier": "every cube, both interpolations, every depth, every pixel (infinities and NaN included)", "why_tests_cant": "rounding errors depend on every bit of every value", "anchors": ["python/aces/clf/LUT3D.py:process", "python/aces/clf/Array.py:lookup3DTrilinear", "python/aces/clf/Array.py:lookup3DTetrahedral", "python/aces/clf/Array.py:lookup3D", "python/aces/clf/ProcessNode.py:bitDepthToNormalized"]}
{"id": "C125", "title": "A Matrix is accurate in IEEE arithmetic", "statement": "With every operation rounded, an n x n or n x (n+1) Matrix gives float32 numbers, each within 5 n (S/2^24 + 2^-150) of the exact row product (S the sum of the sizes of the summands), leaves the other channels as they are, is exact where products and partial sums are float32 numbers, and moves float32 values unchanged if it only rearranges channels.", "quantifier": "every matrix up to 2^17 channels with entries of any of the three formats, every image whose sums stay below 2^120", "why_tests_cant": "errors of sums depend on every bit; tests compare with a tolerance on samples", "anchors": ["python/aces/clf/Matrix.py:process"]}
{"id": "C126", "title": "A Range keeps its bounds and its order in IEEE arithmetic", "statement": "With every operation rounded, a clamping Range with four bounds that pixels of the depths can hold gives numbers between the output bounds for every value (the lower bound for NaN), preserves the order of numbers, differs from the affine map by at most (x (maxOut-minOut)/(maxIn-minIn) + maxOut)/2^20 + 2^-129, and takes codes with whole images to them exactly.", "quantifier": "every pair of depths, all such bounds, every value", "why_tests_cant": "rounding errors depend on every bit of every value; a code is missed by the last bit", "anchors": ["python/aces/clf/Range.py:process", "python/aces/clf/ProcessNode.py:bitDepthToNormalized", "python/aces/clf/ProcessNode.py:normalizedToBitDepth", "python/aces/filterImageWithCLF.py:filterImageWithCLF"]}
{"id": "C127", "title": "Index maps are safe in IEEE arithmetic", "statement": "With every operation rounded, an index map with increasing float64 inputs and float32 outputs that are not negative and do not decrease gives, for every float32 number, a float32 number that saturates at the ends, is the output at an input, lies between neighbouring outputs, keeps the order and is within 2^-23 of the larger output of the exact interpolation; NaN and infinities pass; LUT1D and LUT3D nodes with such maps give numbers between entries of the table, the end entries at the end indices, and a LUT1D is within (3 J m + B)/2^23 + 2^-150 of exact interpolation.", "quantifier": "all such maps (one or one per channel), all tables of float32 entries, all pixels", "why_tests_cant": "overshoot of an interpolation by one bit depends on every bit of the knots", "anchors": ["python/aces/clf/IndexMap.py:_processRaw", "python/aces/clf/IndexMap.py:process", "python/aces/clf/LUT1D.py:process", "python/aces/clf/LUT3D.py:process"]}
{"id": "C128", "title": "Parameters are read as written, or as their defaults", "statement": "Reading a node's element gives exactly what it says: one row per LogParams or GammaParams element in order, the last ECParams, the last value element of a Range, the last Slope, Offset, Power and Saturation of an ASC CDL; each number is the one its text denotes in the decimal grammar of float, a missing one is the documented default, and missing attributes are those of the class.", "quantifier": "all elements, all attributes and children, in any order", "why_tests_cant": "defaults and the order of repeated elements matter only for files nobody wrote tests for", "anchors": ["python/aces/clf/ExtensionLog.py:readChild", "python/aces/clf/ExtensionGamma.py:readChild", "python/aces/clf/ExtensionExposureContrast.py:readChild", "python/aces/clf/Range.py:readChild", "python/aces/clf/ASCCDL.py:readChild", "python/aces/clf/ProcessNode.py:read"]}
{"id": "C129", "title": "A parameter element that gives no numbers is neutral", "statement": "An element of parameters that leaves out all its numbers means what the node does without the element.", "quantifier": "all Log, ExposureContrast and Gamma elements, all pixels", "why_tests_cant": "the tests always give all the numbers", "anchors": ["python/aces/clf/ExtensionLog.py:readChild", "python/aces/clf/ExtensionGamma.py:readChild", "python/aces/clf/ExtensionGamma.py:process", "python/aces/clf/ExtensionExposureContrast.py:readChild"]}
{"id": "C130", "title": "Half-domain LUTs are accurate in IEEE arithmetic", "statement": "With every operation of the code rounded to its IEEE format, a half-domain LUT gives the stored entry exactly at each of the 65536 half values; between two halves it gives a value within max(|v1|,|v2|)/2^23 + 2^-148 of the exact interpolation of their entries v1 and v2, and between v1 and v2 unless one of these is subnormal in single precision; infinities, NaNs and overflowing inputs pick their own entries. The identity table keeps every half.", "quantifier": "all tables of 65536 finite single-precision entries, all finite and special inputs", "why_tests_cant": "2^32 inputs times all tables; the weight is made from three rounded operations near every one of 65536 codes", "anchors": ["python/aces/clf/Array.py:lookup1DHalfDomainInterpolated", "python/aces/clf/LUT1D.py:process"]}
{"id": "C131", "title": "Sample positions reach both ends, in order and accurately", "statement": "With every operation rounded to float64, the positions at which a process list is sampled begin at the lower end, end at the upper end, never decrease, and are within (|lo|+|hi|)/2^50 + 2^-1070 of lo + i/(n-1)(hi-lo); over the unit interval they are the correctly rounded i/(n-1).", "quantifier": "all resolutions from 2, all indices, all float64 ends up to 2^200", "why_tests_cant": "tests sample unit ranges, where no rounding shows", "anchors": ["python/aces/lutFormats/Sampling.py:sample1D", "python/aces/lutFormats/Sampling.py:sample3D", "python/aces/lutFormats/Sampling.py:sample1D3D1D"]}
{"id": "C132", "title": "Extensions that are switched off are not used", "statement": "With a vendor's features switched off, the float encodings of arrays cannot be given to an array or written, and no file written or strictly read uses an extension of that vendor; arrays otherwise hold what was given last, and groups find the first node of a name.", "quantifier": "all sequences of calls on an array, all arrays, lists and feature masks", "why_tests_cant": "the tests run with all features on", "anchors": ["python/aces/clf/Array.py:setFloatEncoding", "python/aces/clf/Array.py:write", "python/aces/clf/Array.py:read", "python/aces/clf/ProcessList.py:write", "python/aces/clf/ProcessList.py:read", "python/aces/clf/ExtensionGroup.py:getProcess"]}
{"id": "C133", "title": "Whole lists in IEEE arithmetic", "statement": "Pixels through a process list of Range, Matrix, LUT1D, LUT3D (trilinear or tetrahedral) CDL (style Fwd), Gamma (basicFwd, exponents at least 1) Log (antiLog10, antiLog2) and ExposureContrast (linear, contrast at least 1) nodes in IEEE arithmetic come out as finite float32 numbers that are off from the composition of the nodes' maps by at most the sum of the errors of the nodes, each magnified by the steepness of the nodes after it; the same list in a Group or in a referenced file gives the same.", "quantifier": "all lists of such nodes, all pixels of bounded numbers, all bounds for which the budget can be computed", "why_tests_cant": "rounding errors accumulate along a list in ways that depend on all nodes and all pixel values; tests compare a few values with a tolerance", "anchors": ["python/aces/clf/ProcessList.py:process", "python/aces/clf/ExtensionGroup.py:process", "python/aces/clf/ExtensionReference.py:process", "python/aces/clf/Range.py:process", "python/aces/clf/Matrix.py:process", "python/aces/clf/LUT1D.py:process", "python/aces/clf/LUT3D.py:process", "python/aces/clf/ExtensionGamma.py:process", "python/aces/clf/ExtensionLog.py:process", "python/aces/clf/ExtensionExposureContrast.py:process"]}
{"id": "C134", "title": "What storage and rounding add up to", "statement": "A process list of Range, Matrix, LUT1D and LUT3D nodes with any numbers in the tables, written to a file (nine decimals) and read back (float32), evaluated in IEEE arithmetic, gives finite float32 numbers that are off from the composition of the maps of the original nodes by at most the sum of what storage and evaluation of each node add, magnified by the steepness of the nodes after it.", "quantifier": "all storable lists of such nodes, all pixels of bounded float32 numbers, all bounds for which the budget can be computed", "why_tests_cant": "the decimals lost in the file, the rounding of the tables and the rounding of the evaluation add up along the list in ways that depend on all table values and pixels", "anchors": ["python/aces/clf/ProcessList.py:writeFile", "python/aces/clf/ProcessList.py:readFile", "python/aces/clf/ProcessList.py:process", "python/aces/clf/Array.py:write", "python/aces/clf/Array.py:read", "python/aces/clf/Range.py:process", "python/aces/clf/Matrix.py:process", "python/aces/clf/LUT1D.py:process", "python/aces/clf/LUT3D.py:process"]}
{"id": "C135", "title": "A converted SPI file is accurate", "statement": "What convertLUTtoCLF.py writes for a one-dimensional (domain 0 to 1) or three-dimensional SPI file, read back and evaluated in IEEE arithmetic, takes every float32 pixel to the polygon, or trilinear interpolation, through the values of the SPI file, up to an error computed from the size and steps of the values and the number of samples.", "quantifier": "all SPI texts that parse to such tables, all registries of the shipped formats in any order, all float32 pixels", "why_tests_cant": "all table sizes and values and all pixels; the error passes through a text format, a parser, a document writer, a reader and float32 interpolation", "anchors": ["python/aces/convertLUTtoCLF.py:main", "python/aces/lutFormats/LutSPI.py:readSPI1D", "python/aces/lutFormats/LutSPI.py:readSPI3D", "python/aces/clf/ProcessList.py:writeFile", "python/aces/clf/ProcessList.py:readFile", "python/aces/clf/LUT1D.py:process", "python/aces/clf/LUT3D.py:process"]}
{"id": "C136", "title": "The ASC CDL in IEEE arithmetic", "statement": "A CDL node of style Fwd in IEEE arithmetic, with a library power within 2^-40 of the curve, gives finite float32 colours between 0 and full scale that are off from slope, offset, clamp, curve, saturation and clamp of the exact colours by at most a computed bound, and leaves other channels alone; with neutral parameters it leaves all pixels of integer depths, and float pixels whose colours are 0 or at least 2^-20, exactly as they are; darker floats it may turn into 0.", "quantifier": "all slopes, offsets, saturations and curves within bounds, all positive powers, all depths, all images of float32 pixels with any further channels", "why_tests_cant": "all parameters and pixel values; cancellation in the saturation step loses dark colours only beside bright ones", "anchors": ["python/aces/clf/ASCCDL.py:process"]}
{"id": "C137", "title": "Basic gamma in IEEE arithmetic", "statement": "A Gamma node of style basicFwd or basicRev in IEEE arithmetic, with a library power good to 2^-50, gives float32 colours within a fraction (g+1)/2^20 (reverse: (1/g+1)/2^19) of the exact power; colours without light give 0; basicFwd followed by basicRev brings every colour back up to a fraction (1/g+1)/2^17 of it; other channels stay.", "quantifier": "all exponents between 2^-10 and 2^10, all depths, all images of float32 pixels whose colours and their powers lie between 2^-100 and 2^90 or have no light", "why_tests_cant": "all exponents and pixel values; relative error at every scale, and the error of the rounded reciprocal exponent", "anchors": ["python/aces/clf/ExtensionGamma.py:process"]}
{"id": "C138", "title": "Logarithms in IEEE arithmetic", "statement": "A Log node of style log10 or log2 in IEEE arithmetic gives the logarithm l up to (|l|+1)/2^19 of full scale, taking colours without light for the smallest normal float32; antiLog10 and antiLog2 give the power of the base within a fraction (|X|+1)/2^19; a logarithm followed by its antilogarithm brings every colour back up to a fraction (|l|+1)/2^15 of it; other channels stay.", "quantifier": "both bases, all parameters, all depths, all images of float32 pixels whose colours lie between 2^-100 and 2^90 or have no light", "why_tests_cant": "all pixel values; log2 is computed as a quotient of two rounded logarithms and the floor as a product of two rounded literals", "anchors": ["python/aces/clf/ExtensionLog.py:process"]}
{"id": "C139", "title": "SPI 3D rows go where their indices say", "statement": "Each row of an SPI 3D file names a lattice point by its first three numbers; reading the file puts the colour of the row at that lattice point.", "quantifier": "all files, all sides, all orders of rows", "why_tests_cant": "orders of the rows grow factorially with their number; sample files are all in the one order that works", "anchors": ["python/aces/lutFormats/LutSPI.py:readSPI3D"]}
{"id": "C140", "title": "LUT files with missing or surplus rows are refused", "statement": "A LUT file whose number of rows differs from the size that its header declares is refused.", "quantifier": "all SPI 1D, SPI 3D and CSP files, all declared sizes and numbers of rows", "why_tests_cant": "all pairs of size and row count; what happens differs between formats and between too few and too many", "anchors": ["python/aces/lutFormats/LutSPI.py:readSPI1D", "python/aces/lutFormats/LutSPI.py:readSPI3D", "python/aces/lutFormats/LutCSP.py:readCSP"]}
{"id": "C141", "title": "Blank lines in LUT files make no difference", "statement": "A LUT file with blank lines between or after its rows is read like the file without them.", "quantifier": "all SPI 1D, SPI 3D and CSP tables, all numbers and positions of blank lines", "why_tests_cant": "all files and positions", "anchors": ["python/aces/lutFormats/LutSPI.py:readSPI1D", "python/aces/lutFormats/LutSPI.py:readSPI3D", "python/aces/lutFormats/LutCSP.py:readCSP"]}
{"id": "C142", "title": "Only process lists are read as process lists", "statement": "A document whose root element is not ProcessList is refused.", "quantifier": "all documents, all root elements, with and without strict, also for referenced files", "why_tests_cant": "all names of the root element and all documents", "anchors": ["python/aces/clf/ProcessList.py:read", "python/aces/clf/ProcessList.py:readFile"]}
{"id": "C143", "title": "Arrays with missing numbers never give a wrong colour", "statement": "If a list with arrays that have fewer numbers than their dimensions say gives an image at all, then that image is the one the complete arrays give, whatever the missing numbers are; numbers too many are not used.", "quantifier": "all lists, nested groups and references, all arrays of Matrix, LUT1D and LUT3D nodes, all missing or surplus numbers, all images", "why_tests_cant": "all dimensions, all counts of numbers and all pixels; a short array fails for some pixels and not for others", "anchors": ["python/aces/clf/Array.py:read", "python/aces/clf/Array.py:lookup1D", "python/aces/clf/Array.py:lookup3D", "python/aces/clf/LUT3D.py:process", "python/aces/clf/Matrix.py:process"]}
{"id": "C144", "title": "Exposure and contrast follow photographic rules", "statement": "An ExposureContrast node of style linear applies one curve to all channels: a stop of exposure doubles light, contrast leaves the pivot in place and is strictly increasing, black stays black, two nodes with one pivot combine to one, and every setting can be undone.", "quantifier": "all exposures, positive contrasts and positive pivots, all images of three-channel pixels, all bit depths", "why_tests_cant": "real parameters and real colours; the rules relate runs with different parameters", "anchors": ["python/aces/clf/ExtensionExposureContrast.py:process"]}
{"id": "C145", "title": "Film scans are decoded and encoded accurately in IEEE arithmetic", "statement": "A Log node of style logToLin gives the light of a film code and one of style linToLog the code of a light, each up to a stated rounding error in IEEE arithmetic: the white point gives the highlight and the black point the shadow, more code is more light, the node is an accurate stage of a list, codes come back from light up to a small share of a code, and channels past the third stay.", "quantifier": "all film parameters in a usual range (positive gamma, white above black, highlight above shadow), one per channel or by default, all images of single-precision colours in range, all strides from 3, all bit depths, all libraries of powers and logarithms good to 2^-50", "why_tests_cant": "real-valued colours and parameters; the bound must hold for every rounding of every operation and every admissible library", "anchors": ["python/aces/clf/ExtensionLog.py:process"]}
{"id": "C146", "title": "Monitor curves are accurate in IEEE arithmetic, and come back away from the break point", "statement": "A Gamma node of style moncurveFwd gives the monitor curve up to a stated rounding error in IEEE arithmetic and is an accurate stage of a list; the curve keeps black and white, is strictly increasing, continuous and reaches every number; a node of style moncurveRev undoes the curve for every colour that is on the same side of the break point as its value; forward then reverse gives such colours back up to a stated error; channels past the third stay.", "quantifier": "all exponents from 1+2^-10 to 10 and offsets from 2^-10 to 2^10 that are doubles, one pair per channel or shared, all images of single-precision colours in range, all strides from 3, all bit depths, all libraries of powers good to 2^-50", "why_tests_cant": "real-valued colours and parameters; the bound must hold for every rounding of every operation, on both sides of the break point, and every admissible library", "anchors": ["python/aces/clf/ExtensionGamma.py:process"]}
{"id": "C147", "title": "Ranges of every kind are accurate in IEEE arithmetic", "statement": "Range nodes with four bounds, with bounds on one side and without bounds, of any bit depths, clamping or not, give in IEEE arithmetic the affine map, the shift or the change of depth of the specification up to a stated error, magnify errors of their inputs by no more than their slope, and are accurate stages of lists.", "quantifier": "all bounds up to 2^80 full scales whose inputs are not closer than 2^-8 of their size, all bit depths, all images of single-precision colours in range", "why_tests_cant": "real-valued bounds and colours; the bound must hold for every rounding of every operation and every pair of depths", "anchors": ["python/aces/clf/Range.py:process"]}
{"id": "C148", "title": "Lists with groups, references and bypassed nodes are accurate in IEEE arithmetic", "statement": "A list with nested groups, references and bypassed nodes gives in IEEE arithmetic the composition of the maps it stands for, up to the errors of its parts, each magnified by the steepness of the parts after it: groups and references stand for what is in them, missing references for nothing, and bypassed nodes for nothing or for the change of depth between their neighbours.", "quantifier": "all lists of supported nodes, nested to any depth, all feature sets, all images of single-precision colours in range", "why_tests_cant": "unbounded nesting, real-valued colours, and every rounding of every operation", "anchors": ["python/aces/clf/ProcessList.py:process", "python/aces/clf/ExtensionGroup.py:process", "python/aces/clf/ExtensionReference.py:process"]}
{"id": "C149", "title": "Filtered images are accurate in IEEE arithmetic", "statement": "An RGB image filtered by worker processes in IEEE arithmetic is, at every pixel, the composition of the change of depth to the list, the maps the list stands for, and the change of depth to the output: integer codes within one code and a stated error, single-precision numbers within the stated error, halfs within that error and one rounding.", "quantifier": "all images of integers or single-precision numbers of at least two rows, all lists of supported nodes with groups, references and bypassed nodes, all numbers of workers from 2, all orders of work that finish, all output depths", "why_tests_cant": "unbounded image sizes, schedules, lists and nesting, real-valued colours, and every rounding of every operation", "anchors": ["python/aces/filterImageWithCLF.py:filterImageWithCLF", "python/aces/filterImageWithCLF.py:filterRow_parallel", "python/aces/filterImageWithCLF.py:writePixelArray"]}
{"id": "C150", "title": "The reverse CDL is accurate in IEEE arithmetic and undoes the forward one", "statement": "A CDL of style Rev or RevNoClamp in IEEE arithmetic is, at every colour, within a stated error of the exact reverse grade, keeps further channels, and undoes a Fwd CDL with the same values within a stated error wherever the forward grade did not clip.", "quantifier": "all slopes, powers and saturations away from zero, all offsets, all depths, all single-precision colours, all strides from 3, all math libraries that are nearly right on double-precision numbers", "why_tests_cant": "real-valued colours and exponents, every rounding of every operation, and unbounded images", "anchors": ["python/aces/clf/ASCCDL.py:process", "python/aces/clf/ASCCDL.py:ASCCDL"]}
{"id": "C151", "title": "Further channels do not influence colours", "statement": "Running a process list over pixels of three or more channels gives, in any arithmetic, exactly the colours (or exactly the error) that running it over the first three channels gives, so alpha cannot influence colours; without Ranges, ExposureContrast and bypassed nodes the further channels come out unchanged; and the accuracy proved for three channels holds for any number; the same for whole images filtered by worker processes.", "quantifier": "all lists of nodes, groups and references whose matrices have at most three rows; all roundings, math libraries, numbers of channels, pixel values including NaN and infinity, images, numbers of workers and schedules", "why_tests_cant": "arbitrary lists, images and contents of the further channels", "anchors": ["python/aces/clf/ProcessList.py:process", "python/aces/clf/Matrix.py:process", "python/aces/clf/LUT3D.py:process", "python/aces/clf/Range.py:process", "python/aces/filterImageWithCLF.py:filterImageWithCLF"]}
{"id": "C152", "title": "A list baked into a LUT file and converted back is the list, up to interpolation and rounding", "statement": "Converting a CLF file to an SPI 1D or 3D LUT over [0, 1] in IEEE arithmetic, converting that file back to CLF, reading it and processing pixels with it gives the ideal function of the original list at the clamped pixel (1D: for each channel at its own grey) up to an explicit bound: half a sample step times the slope of the list (three times that for a cube), plus the rounding of the list, of the sample positions, of the texts and of the final lookup.", "quantifier": "all CLF files whose list is carried by ideal stages with a budget and slope, all resolutions, text formats within a stated distance, orders of the registered formats, math libraries, and lists of float32 pixels", "why_tests_cant": "arbitrary lists, resolutions and pixels; the bound needs a proof through two scripts", "anchors": ["python/aces/convertCLFtoLUT.py:main", "python/aces/convertLUTtoCLF.py:main", "python/aces/lutFormats/Sampling.py:sample1D", "python/aces/lutFormats/Sampling.py:sample3D", "python/aces/lutFormats/LutFormat.py:write", "python/aces/lutFormats/LutSPI.py:writeSPI1D", "python/aces/lutFormats/LutSPI.py:writeSPI3D"]}
{"id": "C153", "title": "Index maps, half-domain tables and reverse CDLs inside lists are accurate in IEEE arithmetic", "statement": "In IEEE arithmetic, a LUT1D or LUT3D with index maps, a half-domain LUT1D, and a CDL of style Rev or RevNoClamp stand, inside any process list, for an explicit function of the colour: the curve or cube of the table after the polygons of its index maps, the curve that the half-domain table samples, or the inverse CDL formula. One evaluation is off by an explicit bound, earlier errors are magnified by at most an explicit factor, and the result is an explicitly bounded float32 colour; so lists that contain them are accurate as a whole. A half-domain table that samples a curve follows it between the halves within half the slope times the distance of neighbouring halves.", "quantifier": "all lists of nodes of these kinds, mixed with the nodes of C148; all index maps with increasing inputs and non-decreasing outputs, tables, depths, parameters and pixels of float32 numbers within the stated range; all libraries whose powers are close to the curves", "why_tests_cant": "A test compares a few pixels of a few lists; a bound that holds for every map, table, parameter set and pixel, and that composes over lists of any length, is outside the reach of sampling.", "anchors": ["python/aces/clf/LUT1D.py:process", "python/aces/clf/LUT3D.py:process", "python/aces/clf/IndexMap.py:process", "python/aces/clf/Array.py:lookup1DHalfDomain", "python/aces/clf/ASCCDL.py:process", "python/aces/clf/ProcessList.py:process"]}
{"id": "C154", "title": "The CDL style without clamping is accurate in IEEE arithmetic, alone, inside lists, and with its inverse", "statement": "In IEEE arithmetic, a CDL node of style FwdNoClamp (or noClampFwd) never fails on finite float32 colours up to a stated size, keeps further channels, and returns finite float32 colours that are off from slope, offset, power (above zero) and saturation of the exact ones by an explicit bound: what the curves make of the rounding before them, plus a millionth of the largest value. The bound holds inside any process list. RevNoClamp after FwdNoClamp returns colours that slope and offset leave between 0 and 1 and that stay below full scale, within an explicit bound. Real powers at least 1, and below 1, as a C library computes them, meet the hypotheses.", "quantifier": "all slopes, offsets, powers, saturations, depths, strides and pixels of float32 numbers of either sign within the stated size; all lists of nodes that contain such a node; all libraries whose powers are close to the curves", "why_tests_cant": "A test compares a few pixels for a few parameters; the power of a number just below and just above zero, whose sign rounding may change, and the composition with other nodes over lists of any length are outside the reach of sampling.", "anchors": ["python/aces/clf/ASCCDL.py:process", "python/aces/clf/ProcessList.py:process"]}
{"id": "C155", "title": "Gradients stay gradients in IEEE arithmetic", "statement": "In IEEE arithmetic, a node whose table rises (or a Range, or a Matrix without negative coefficients) never gives a smaller number for a larger pixel value, so that a gradient has no reversals after rounding; the same holds for lists of such nodes. True for LUT1D tables of float32 numbers (and reversed order for falling tables), Ranges, Matrices and lists of these; false for LUT1D tables of doubles (64-bit encodings, or set through the API) and for LUT3D.", "quantifier": "all tables of any length below 2^53, all depths, strides, and pairs of finite float32 pixel values, neighbours included; all lists of any length", "why_tests_cant": "Only pixel values that are neighbours or very small come close to a reversal, and there are 2^64 pairs of float32 numbers for each table; a test that samples a gradient steps over them.", "anchors": ["python/aces/clf/Array.py:lookup1DLinear", "python/aces/clf/Array.py:lookup3DTrilinear", "python/aces/clf/LUT1D.py:process", "python/aces/clf/LUT3D.py:process", "python/aces/clf/Matrix.py:process", "python/aces/clf/Range.py:process", "python/aces/clf/ProcessList.py:process"]}
{"id": "C156", "title": "Tone curves keep the order of colours", "statement": "In exact arithmetic, a tone node with sensible parameters never exchanges colours: of two colours one of which is nowhere darker than the other, it makes two of which the same is true. True for forward CDLs with saturation at most 1 and reverse ones with saturation at least 1 (clamping or not), basic gamma, the monitor curve, logarithms and antilogarithms, film curves, ExposureContrast, and for lists of nodes that have the property; false for forward CDLs with saturation above 1, reverse ones with saturation below 1, and the reverse monitor curve, which falls at its break point.", "quantifier": "all parameters in the stated ranges, all depths, strides (3 for ExposureContrast), images and pairs of colours; all lists of any length", "why_tests_cant": "Parameters, depths and colours are real numbers; the fall of the reverse monitor curve is at one point that depends on the parameters, and tests of round trips at a few colours pass it by.", "anchors": ["python/aces/clf/ASCCDL.py:process", "python/aces/clf/ExtensionGamma.py:process", "python/aces/clf/ExtensionLog.py:process", "python/aces/clf/ExtensionExposureContrast.py:process", "python/aces/clf/ProcessList.py:process"]}
{"id": "C157", "title": "Greys stay grey", "statement": "A list of nodes that treat red, green and blue alike (Ranges, ExposureContrasts, 1D LUTs with one curve, tetrahedral cubes with greys on the diagonal, CDLs with equal slopes, offsets and powers and any saturation, Gammas and Logs without channels, and groups and references of these, bypassed or not) takes pixels with equal red, green and blue to such pixels, to the last bit, in exact arithmetic, in IEEE arithmetic and in any other that leaves 0 alone. A Matrix does in exact arithmetic if and only if its rows have the same sum; in IEEE arithmetic that is not enough, and for trilinear cubes greys on the diagonal are not enough in any arithmetic.", "quantifier": "all roundings with 0 to 0, libraries, versions, node lists and trees, strides from 3 up, and images for which process returns", "why_tests_cant": "A colour cast of one bit shows for some greys only, and roundings, node lists and images cannot be enumerated.", "anchors": ["python/aces/clf/ProcessList.py:process", "python/aces/clf/LUT1D.py:process", "python/aces/clf/LUT3D.py:process", "python/aces/clf/Array.py:lookup3DTetrahedral", "python/aces/clf/ASCCDL.py:process", "python/aces/clf/Matrix.py:process", "python/aces/clf/ExtensionGamma.py:process", "python/aces/clf/ExtensionLog.py:process"]}
{"id": "C158", "title": "Rising cubes, rising curves and nonnegative matrices keep the order of colours", "statement": "If no channel of a pixel is smaller than that of another, then no channel of its result is, for 3D LUTs whose entries never fall along an axis, trilinear and tetrahedral, whatever the input depth; for 1D LUTs whose columns never fall; for Matrix nodes without negative entries, with or without offsets; for Ranges, clamping or not; and for lists of these in any mixture with the tone curves of C156. Between pixels in different cells too. Conversely, a 3D LUT that keeps the order has entries that never fall, and a Matrix that does has no negative entry.", "quantifier": "all cube sizes and entries, curve lengths and columns, matrices, offsets, ranges, depths, strides from 3 up, images of finite colours and extra channels of any value; exact arithmetic", "why_tests_cant": "An inversion of order by interpolation would show only between particular pairs of positions, inside or across cells, and for particular cubes.", "anchors": ["python/aces/clf/Array.py:lookup3DTrilinear", "python/aces/clf/Array.py:lookup3DTetrahedral", "python/aces/clf/Array.py:lookup1DLinear", "python/aces/clf/LUT3D.py:process", "python/aces/clf/LUT1D.py:process", "python/aces/clf/Matrix.py:process", "python/aces/clf/Range.py:process"]}
{"id": "C159", "title": "Nearby colours stay near", "statement": "If the channels of two pixels are at most d apart, those of their results are at most L d apart, also when the pixels lie in different cells of a table. For 3D LUTs, trilinear and tetrahedral, L is 3 J m over the full scale of the input, where J bounds the difference of neighbouring entries and m + 1 is the side; for 1D LUTs J m over the full scale; for Matrix nodes, with or without offset, the greatest sum of the sizes of a row; for Ranges, clamping or not, their slope; and for lists of these the product. In IEEE arithmetic, for trees of nodes with groups, references and bypassed nodes, the same up to twice the accuracy of the list. The reverse monitor curve jumps: at its break point, by an amount that does not shrink with the distance of the colours.", "quantifier": "all table sizes and entries, matrices, ranges, depths, strides from 3 up, images, node lists and, in IEEE arithmetic, node trees with an error budget; all reverse monitor curves with gamma above 1 and positive offset other than gamma - 1", "why_tests_cant": "A jump shows only between two pixels on the two sides of the seam of two cells, and there are too many pairs of pixels to try.", "anchors": ["python/aces/clf/Array.py:lookup3DTrilinear", "python/aces/clf/Array.py:lookup3DTetrahedral", "python/aces/clf/Array.py:lookup1DLinear", "python/aces/clf/LUT3D.py:process", "python/aces/clf/LUT1D.py:process", "python/aces/clf/Matrix.py:process", "python/aces/clf/Range.py:process", "python/aces/clf/ProcessList.py:process", "python/aces/clf/ExtensionGamma.py:process"]}
{"id": "C160", "title": "Process lists may be moved with the files they refer to", "statement": "Reading a process list should give the same when its file, and the files it refers to, are moved together to another folder. False: relative paths of references are looked up in the working directory, not beside the referring file, and a file that is not found is passed over without a word, even in strict reading. What holds: reading depends only on the contents of the file and of the files its references lead to. If these keep their contents and paths, the file itself may be moved, anything else on the disk may change, and the result, list or error, is the same; in particular for files without references and for files whose references, and theirs in turn, are by paths from the root.", "quantifier": "all file systems, documents, plain and gzipped, references at any depth of groups and files, compatibility settings, strict or not, and depths of nesting", "why_tests_cant": "Tests run in the folder of their files, or give full paths, and then the two ways of looking up agree.", "anchors": ["python/aces/clf/ExtensionReference.py:resolvePath", "python/aces/clf/ExtensionReference.py:setPaths", "python/aces/clf/ExtensionReference.py:readInitialize", "python/aces/clf/ProcessList.py:readFile", "python/aces/clf/ProcessList.py:read", "python/aces/clf/ExtensionGroup.py:readChild"]}
{"id": "C161", "title": "Bit depths are only a scale", "statement": "On three-channel images a Gamma, Log, ASC CDL or linear ExposureContrast node, in every style it knows, with any depths, gives the same as a Range without bounds from its input depth to a float depth, the node with float depths, and a Range to its output depth. The results agree bit for bit in IEEE arithmetic, with any library of powers and logarithms, for infinite and undefined values, and an error of one is the error of the other. A 1D or 3D LUT without index maps is a Range followed by the table with a float input depth. Two limits: a style the node does not know leaves the values on the scale of the input depth, and further channels are not scaled, so that alpha 255 stays 255 when the output has ten bits.", "quantifier": "all roundings that are idempotent in float32, IEEE among them, libraries, parameters, depths, styles, tables, feature sets and three-channel images with any values", "why_tests_cant": "Tests use a few depths and compare with a tolerance, which hides a scaling that is done twice, left out for a style, or done in another order.", "anchors": ["python/aces/clf/ExtensionGamma.py:process", "python/aces/clf/ExtensionLog.py:process", "python/aces/clf/ASCCDL.py:process", "python/aces/clf/ExtensionExposureContrast.py:process", "python/aces/clf/LUT1D.py:process", "python/aces/clf/LUT3D.py:process", "python/aces/clf/Range.py:process", "python/aces/clf/ProcessNode.py:bitDepthToNormalized", "python/aces/clf/ProcessNode.py:normalizedToBitDepth"]}
{"id": "C162", "title": "Messages do not change the result, and are true", "statement": "Processing a list with verbose gives the same values, or the same error, as without. If it succeeds and nothing is bypassed, the messages are, in this order, the number of values and the stride and then for each node its name, its type and the result of the list cut off after this node, with the messages of groups and references before, and after it a remark if its wish to be bypassed was ignored; leaf nodes print nothing of their own. Within a group there is a message for each child, with the result of the group cut off after that child, and a reference prints what the list it refers to prints. The type is the name of the element the node is written as. In a list of leaf nodes where bypassing is on, exactly the nodes that ask for it are reported as bypassed, and a Range is reported for exactly those whose neighbours have different depths. The function that filters a row pixel by pixel is different: wherever it works without messages, it fails with them.", "quantifier": "all lists and trees of nodes, parameters, feature sets, strides and images", "why_tests_cant": "Tests do not capture what is printed, and they run with messages off.", "anchors": ["python/aces/clf/ProcessList.py:process", "python/aces/clf/ExtensionGroup.py:process", "python/aces/clf/ExtensionReference.py:process", "python/aces/filterImageWithCLF.py:filterRow_pixel"]}
{"id": "C163", "title": "Reading into a list adds to it", "statement": "Calling readFile on a list that has content succeeds exactly if reading the file into a new list does, with the same error otherwise. On success the nodes and information elements of the file come after those the list had, its attributes replace those of the same name, and all else stays; the list then does what it did before and after that what the file says, unless a bypassed node is at the seam. If reading fails, the list keeps what the elements before the failing one have given. So reading a file again does not reload it: a list that doubles then multiplies by four.", "quantifier": "all lists, files, documents, feature sets, strictness and images", "why_tests_cant": "Tests read every file into a new list, and do not look at a list after a failed read.", "anchors": ["python/aces/clf/ProcessList.py:read", "python/aces/clf/ProcessList.py:readFile", "python/aces/clf/ProcessList.py:setAttribute", "python/aces/clf/ProcessList.py:addProcess", "python/aces/clf/ProcessList.py:addElement"]}
{"id": "C164", "title": "Rearranging the channels before or after a list of single curves is the same", "statement": "If all nodes of a list apply one curve to red, green and blue (Ranges, 1D LUTs with one curve and at most one IndexMap, ExposureContrast nodes, Gamma and Log nodes whose parameters name no channel, and groups and references of such nodes, some of them bypassed), then exchanging, copying or dropping colours of all pixels before processing gives what doing so afterwards gives, to the last bit; in particular processing then succeeds too, and after an exchange of colours it succeeds only if it does before. A colour of the result depends on that colour of the pixels and on the further channels, on no other colour, and in the same way for all three. The same rearranging may be done before or after filtering a row of an image. In exact arithmetic, exchanging channels before a Matrix node is exchanging them after it, if the matrix stays the same when its rows and columns are exchanged likewise. The property is false for a 1D LUT with one curve and an IndexMap for each channel, and for such Matrix nodes in IEEE arithmetic.", "quantifier": "all such lists, images of pixels with three or more channels, and maps from the three colours to the three colours, in IEEE and in exact arithmetic", "why_tests_cant": "Whether red is treated as blue is, depends on loops, parameter rows and views of a flat array; a test exchanges the channels of some pixels for some lists.", "anchors": ["python/aces/clf/LUT1D.py:process", "python/aces/clf/Range.py:process", "python/aces/clf/Matrix.py:process", "python/aces/clf/ExtensionExposureContrast.py:process", "python/aces/clf/ExtensionGamma.py:process", "python/aces/clf/ExtensionLog.py:process", "python/aces/clf/Array.py:lookup1DLinear", "python/aces/clf/Array.py:lookup1DHalfDomain", "python/aces/clf/ProcessList.py:process", "python/aces/clf/ExtensionGroup.py:process"]}
