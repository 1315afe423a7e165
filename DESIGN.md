# Formal model of the ampas/CLF reference implementation

Source: `/repo/python/aces` (Python 2, numpy). The model is written in Lean 4
(`/verif/lean`), one Lean definition per Python function or method, each with a
comment naming the file and lines it follows. Nothing in the repository is
executed; the model was written by reading the source.

## How the code is modelled

* **Exceptions are values.** A Python function that can raise becomes a function
  into `Except PyErr`. `NameError`, `KeyError`, `IndexError`,
  `ZeroDivisionError`, `TypeError`, `AttributeError`, `ValueError` and the
  project's `UnsupportedExtensionError` / `UnknownProcessNodeError` are
  distinguished. State left behind by a raising call is not modelled.
* **Numbers.** `Flt K` is a float: finite value in `K`, `+inf`, `-inf` or `nan`,
  where `K` is any linearly ordered field with floor (`ℚ` when executing
  examples, `ℝ` for powers and logarithms). Comparisons and Python's two-argument
  `min`/`max` follow IEEE/Python semantics on NaN. Finite arithmetic is exact.
  Every store into a numpy float32 array goes through an arbitrary rounding
  function `A.f32`; theorems that need exactness assume `A.f32 = id`
  ("exact arithmetic"), all others hold for every rounding function.
  `Model/Rounded.lean` has LUT, Matrix, Range and index map evaluation again with
  every operation rounded to the format numpy gives it (`float32` or `float64`, to
  nearest even); without rounding it is the exact model (`Lemmas/RoundedExact.lean`), and
  C122 on are about it. Elsewhere double-precision rounding of intermediate results is
  not modelled. The sign of zero is modelled in the bit-cast layer only.
* **`pow` and `log10`** are fields of the arithmetic structure `A`; laws about
  them are proved for the instance built from `Real.rpow` and `Real.logb 10`.
* **Buffers and aliasing.** `node.process` returns the result array, the final
  contents of the argument array, and whether the result *is* the argument
  (numpy views, in-place `Range`).
* **Binary formats.** half/float/double are one parametric IEEE format:
  `decode : code → value`, `encode : value → code` (round to nearest even).
* **XML** is a tree of tag, attributes, text, children. Most theorems work on
  trees and take writing and parsing to be inverse, except that empty text comes
  back as no text (`Xml.reparse`). `Model/XmlText.lean` models the characters:
  `ElementTree` and `minidom` serialising and the part of the expat parser that
  applies (no document types); C116 and C117 prove what the trees of the other
  theorems stand for. Dictionaries are association lists with unique keys; theorems must not
  depend on key order where Python's order is unspecified.
* **Text.** `"%6.9f"`, decimal integers, fixed-width hex, whitespace splitting
  `str(float)` (12 significant digits) and their parsers are modelled on
  character lists, exactly; what a text stands for is not rounded to double.
* **Files.** A file system is a function from path to document; reading
  references uses fuel, and running out of fuel is the Python recursion error.
* **Image filtering.** The pool is a queue of row tasks, a list of workers and a
  list of results; a schedule says which worker moves next. OpenImageIO is
  represented by the image it returns and the image it is given.

## Layout

* `Verif/Model/*` – the model, no theorems.
* `Verif/Spec/*` – small independent specifications used in statements.
* `Verif/Lemmas/*` – helper lemmas.
* `Verif/Props/*` – the property theorems, each followed by `example`s showing a
  non-trivial instance of its hypotheses.

## Properties: what is modelled and how each is proved

| id | modelled | method |
|----|----------|--------|
| C01 | bit-depth functions over `Flt K` and arbitrary depth strings | case analysis on depth, field arithmetic |
| C02 | `clamp` with Python min/max on NaN | case analysis |
| C03 | `ProcessList.read` over XML trees | induction over the child list |
| C04 | `Group.readChild` | false: witness document; partial: documents whose groups contain no such element |
| C05 | `ProcessList.read`, non-strict | induction over children, equality with a filter spec |
| C06–C09 | `Range.process` branch by branch | pointwise reduction, then field/order arithmetic |
| C10–C11 | `Matrix.process` loops | loop invariants by induction, equality with `Matrix.mulVec` |
| C12–C13 | `IndexMap._processRaw` search loop | induction over the search |
| C14–C17 | `lookup1D`, `lookup1DLinear`, `LUT1D.process`, `simpleSampledLUT` | floor/ceil reasoning |
| C18–C20 | `lookup1DHalfDomainInterpolated` over the IEEE half model | correctness of `encode`/`decode`, adjacency of codes |
| C21–C25 | `lookup3D`, trilinear, tetrahedral, `simple3DLUT` | index arithmetic, six-case analysis; C24 false for non-cubes: witness |
| C26–C29 | `ASCCDL.process` all styles | order arithmetic; `rpow` laws; C29 false: witness, partial |
| C30–C33 | `Gamma`, `Log` all styles | `rpow`/`logb` laws; C31 false: witness, partial |
| C34 | pixel loops of every node | loop invariant; false for ExposureContrast: witness, partial |
| C35 | style dispatch | false: `cubic`, `video`, `log` raise for every input; partial for the working styles |
| C36 | pixel loops, whole node trees | induction on pixels and on the node tree |
| C37 | `ProcessList.process` | induction on the list |
| C38 | buffer model | invariant: caller buffer unchanged |
| C39 | bypass branch with adapter | induction on the list |
| C40 | `ProcessNode.read` + `process` | false: witness; partial |
| C41–C43 | `Group`, `Reference`, writing | structural induction; C43 false for nested references: witness, partial |
| C44 | all nodes | structural induction |
| C45–C49 | `Array.write/read`, `IndexMap.write/read`, bit casts | parser/printer induction, nearest-float reasoning; C45 false for values that are not float32, C49 false: witness, partial |
| C50 | `write` then `read` of whole lists | false: a comment is lost, a written list is unreadable; partial: structural induction over storable lists, related value by value |
| C51 | `readFile` | false: witness; partial for successful reads |
| C52 | `Registry`, `LutFormat` and the four shipped format classes: extension parsing, capability tables, dispatch | order-independence by permutation of classes with unshared extensions; per-format reduction of `read`/`write`; unsupported and missing extensions |
| C53 | `writeSPI1D`, `readSPI1D` on the text of the file, for any number formatter | line and word splitting, digit texts; false for numbers the text does not hold: witness, partials (rounded, exact, process-level) |
| C54 | `writeSPI3D`, `readSPI3D` on the text | as C53, plus lattice lookup (C21); false for inexact texts: witness, partials |
| C55 | `readCSP`, `writeCSP3D`, `writeCSP1D` on the text of the file | the reader's reordering loop is a permutation of the entries (mixed-radix digits); written cubes read back with the six-decimal rounding; false for unequal sides and inexact texts: witnesses, partials |
| C75 | `generateCLFPrelut` | interval search (C56's lemma) gives points of the prelut polyline; the range and table nodes evaluate it at the resampled positions; false for two entries with outputs other than 0, 1 and for unequal lengths |
| C56 | `generateLUT1DInverseIndexMap` and the forward nodes of `readSPI1D` | polyline relation, index-map interpolation (C13), both compositions |
| C57 | `generateLUT1DInverseHalfDomain` | search-loop induction, exactness of half lookups (C18); false for every range but [0,1]: witness, partial |
| C58 | `sample1D`, `sample3D` | loop induction, nested-list update; false in 3D when the first and last resolution differ (every call raises), partial otherwise |
| C59 | `createShaper`, linear and log2 | `logb`/`rpow` laws through the Range and Log nodes; false below the smallest normal float: witness, partial |
| C60 | `sample1D3D1D` | false: witness; partial when both shapers are the same |
| C79 | `sample1D3D1D` | as C58, for the composed function |
| C80 | `generateLUT1DInverseResampled` | as C57 with lookup at the samples of the resampled table; inexact between them: witness |
| C61 | `writeCLF1D3D1D`, its first stage | the stage inverts the sampled shaper (C56), so it equals the shaper only at its fixed points; false: witness, partials |
| C62 | `writeCTL1D` on the text of the program | infix of the text; false: every table repeats the first column, witness; partials |
| C81 | `sample1D3D1D` and `writeCLF1D3D1D` without shapers | C79's cube, lattice lookup (C21) |
| C82 | `writeCTL3D` on the text of the program | loop induction, text compared without white space |
| C83 | `Registry.write` then `Registry.read` for .spi1d, .spi3d, .csp | composition of C52, C58 and the file round trips; false for .spi3d over a range other than [0,1]: witness, and what comes back instead |
| C84 | `writeCSP1D`, `readCSP` | as C53; false for inexact texts and for two components: witnesses, partials |
| C63 | `convertMatrixToProcessNode` | the OCIO matrix acts on four components; matrices passing the size test map RGB exactly, the others map RGBA; false for RGB pixels, offsets and alpha in blue: witnesses |
| C64 | `convertTransformsToProcessNodes` | structural induction over the tree; nesting does not matter; colours are those of the leaves in turn (no node the readers make has `bypass`) |
| C85 | inverse directions | SPI files by C52/C56, logarithms by C32; false for matrices (dropped) and groups (direction ignored): witness |
| C65 | `filterImageWithCLF` with worker processes, the three row functions | the pool is a state machine stepped by an arbitrary schedule; invariant on queue, workers and results; a measure shows fair schedules finish; rows and pixels by C43's pixelwise lemmas |
| C66 | `filterImageWithCLF` with one process | false: witness (six rows, five lost); exact result for every image (`C66_row5_partial`, `C66_low`) |
| C67 | `readPixelArray`, `writePixelArray` | shifts as division and multiplication; true for 10, 12, 16 bits, false for every other width below 16, `ValueError` above |
| C73 | image heights | false: no image of one row is written, for any list and any schedule; partial from two rows on |
| C86 | the whole of `filterImageWithCLF` with an empty list | `float32` analysis: the rounded quotient times full scale lies within half a unit of the integer (a quarter below powers of two, checked for the four full scales), with rounding by way of `float64` allowed |
| C87 | two runs of `filterImageWithCLF` with empty lists | false: exact law for bytes by way of 10, 12 and 16 bits (a sample that is no whole number at the other depth loses 1), with error bounds for six `float32` roundings; partial: 16 bits, floats without metadata |
| C88 | `writePixelArray` with integer depths | false: values up to one full scale out of range wrap around (`C88_high`, `C88_low`), infinities and NaN raise; partial: in range |
| C89 | errors in rows | false: with workers the result is no image and no error, for every list and schedule; partial: one process |
| C90 | colour data | proved: lists related node by node (`Spec.Twin`) give the same result or error |
| C91 | colours after a round trip | false: an entry of 1e-10 becomes 0; partial: storable lists whose numbers survive their text form |
| C92 | nine decimals | proved with exact arithmetic: LUT1D, LUT3D and Matrix after a round trip |
| C93 | `main` of `convertCLFtoLUT.py` | false: the option is ignored (`C93_ignored`), witness asks for 2 and gets 33; partial: the side of the table written is that of `--lutResolution1d3d1d`, else 33, counted in the text |
| C94 | the options of `convertCLFtoLUT.py` | proved for all pairs of option sets, through the registry and the writers; `C94_shapers` says which shapers and sizes a 1D-3D-1D conversion samples with |
| C95 | `--format` | false: never passed on (`C95_ignored`), witness; partial: paths that have the extension of the format |
| C96 | help texts | proved: the lists are those of the documented formats up to order, and a format is listed iff the registry handles it |
| C97 | `main` of `convertLUTtoCLF.py`, then reading the file | false: witness file with 1e-10; partial: nodes whose numbers survive (C91), every `.spi1d` and `.spi3d` file of such numbers, and to within 0.5e-9 every `.spi1d` file over [0, 1] |
| C98 | `main` of `filterImageWithCLF.py`: processes | count proved; rows false on one CPU: witness; partial: two processes or more (C65) |
| C99 | `main` of `filterImageWithCLF.py`: output depth | false: the script stops without writing (`C99_stops`); partial: the empty text |
| C100 | `main` of `convertOCIOtoCLF.py`, then reading the file | false: witness matrix with 1e-10; partial: nodes whose numbers survive; renaming and describing nodes does not change colours (C90), and the colours are those of the transforms in turn (C64) |
| C101 | half packing on bit patterns | false: before version 1.8 an odd number of values is a `ValueError` (`C101_odd`), witness; partial: even numbers, with any NaNs made quiet, and later versions |
| C102 | `printInfo` of nodes | false: ExposureContrast shows its exposure as its contrast (`C102_contrast`), witness; partial: all other nodes; attributes, elements and nested nodes proved for all |
| C103 | `printInfo` of tables and index maps, as text | proved: the text of each row is read back |
| C104 | `printInfo` of lists | false: witness file that is read and used but not printed; partial: exactly when printing works |
| C105 | setters and getters as calls on the node's state | false: index maps pile up, and the getter of their dimension always fails (`C105_dimensions`), witness; partial: index maps set once; proved for attributes, value elements, dynamic parameters and tables |
| C106 | the same | false: witness that can be written in one order only; partial: exactly when the nodes are equal; proved for input depths and for the files of finite tables |
| C68–C69 | accessors | induction over operation sequences; C69 false: witness |
| C70 | `getElementType` | list induction |
| C71 | CDL gating | case analysis |
| C72 | reference cycles | induction on fuel |
| C74 | lookups with infinite entries | false: witness; partial for finite entries (C14, C18) |
| C77 | `Range.process` with bounds on one side | case analysis, field arithmetic |
| C78 | `Matrix.process` with extra columns | loop invariant, equality with `Matrix.mulVec` of the first columns |
| C76 | `lookup1D` with two columns | false: every row count has a refuting table; partial: what is returned instead |
| C107 | `splitlines` on the text of the file | proved for everything the registry reads (SPI and CSP; the other two classes cannot read) |
| C108 | the version checks of the three readers | false: an SPI 3D file of any other version is read as an empty cube, an SPI 1D file may name its version at the end, witnesses; partial: SPI 1D files with the version before the components; proved for CSP |
| C109 | writer and reader of CSP cubes with preluts; the reader resamples a prelut at twice as many points | false: knots between the resampled points are lost, and the values of two-entry shapers are ignored, witnesses; `C109_resampled`: what is applied to every colour of the range; partial: the resampled positions |
| C110 | the text of the program, run by a small interpreter of assignments and lookups in the specification | false for two components, which are never looked up; partial: one or three components; proved for cubes and for the limits (nine decimals) |
| C111 | the capability methods of the base class, the write methods it gives to its subclasses, the lists of the shipped classes | proved; for writing, "can" is that `write` never answers `False` |
| C112 | `os.path.join`, `os.path.split`; a path in the specification is a list of names, from the root or not | false for search paths with two directories, witness; partial: search paths of one directory, for every depth of every path |
| C113 | the attribute loop of `writePixelArray`, the number of bits, compression and quality | false: an image that says how many bits it has cannot be written with floats (`KeyError`), and quality 0 is not set; partial: integer outputs, and floats from images without that attribute |
| C114 | the cache of index maps: `_createCachedProcess`, half-domain lookup | false from 65520 on (infinity for every map); partial: equal at every half, and everywhere to 65504 if the inputs are halves, since no half lies between neighbours; otherwise a straight line between values at neighbouring halves |
| C115 | index maps as objects: setters, `read`, `process` filling the cache | false: the cache is never made again, so later values are stored and not used; partial: with the cache off, by induction over the calls; what is stored is always what was set last |
| C116 | `etree.tostring`, the expat parser, `minidom.toprettyxml` on characters | false: white space in attributes, carriage returns in texts, text beside children; partial: plain names and allowed characters, everything else comes back; by inverting the lexer on rendered documents, by induction over elements |
| C117 | `writeFile` and `readFile` on characters | false: carriage return; partial: the written document is shown to be plain (all number texts are printable), then C116, then reading is shown to depend only on names, attributes and the texts of leaf elements, then C50 |
| C118 | `writeFile` with what the file held | false: text outside ASCII empties the file and raises; partial: exact condition, and no third outcome |
| C119 | same | proved: the character survives to the parser, which refuses it; what is stored reads as the document |
| C120 | line end handling of the parser, `readFile` | proved: the parser sees only the text with line feeds |
| C121 | namespaces of the parser, `getElementType` | proved: the same parse with a namespace in every tag; then C70 |
| C122 | `Model/Rounded.lean`: `LUT1D.process` with every operation rounded to its format | proved: a monotone odd rounding with relative error; a weighted mean in `float64` exceeds its bounds by at most 16 units of `float64`, which the rounding to `float32` takes away again; Lipschitz bound for the position |
| C123 | same, and `filterImageWithCLF` | false: 170 in a 4-entry inversion of 8-bit codes; partial: error bound, and exact for positions that are binary fractions; exact at the ends by C122 |
| C124 | `LUT3D.process` with every operation rounded | proved: nested means (trilinear) and four weights whose sum is within 8 units of 1 (tetrahedral), then as C122; accuracy of both: interpolation is Lipschitz over the whole cube (for tetrahedra: written with minima of fractions it is monotone in each coordinate when the entries are, and adding a multiple of the index makes any entries monotone), so the rounded position costs at most the slope |
| C125 | `Model/Rounded.lean`: `Matrix.process` with every operation rounded | proved: error of a running sum by induction, absence of overflow, exactness where no step rounds |
| C126 | `Range.process` with every operation rounded; `filterImageWithCLF` | last clause false: the 10-bit legal code 128 becomes 31.999998 and an 8-bit image has 31; proved: bounds and order from monotone rounding, ends exact because codes survive the unit scale, relative errors step by step; partial: exact for equal bounds in and out (not negative) and, without bounds, for every depth conversion that has a whole result |
| C127 | `Model/Rounded.lean`: `IndexMap._processRaw` and the LUT nodes with every operation rounded | proved: differences of float64 numbers have relative errors only, so the ratio stays in [0, 1]; overshoot of the float64 result is absorbed when it is stored as float32; nodes by the lookups of C122 and C124 |
| C128 | `Model/Read.lean`; the grammar of number texts and the selection of children in `Spec/Numerals.lean`, `Spec/Params.lean` | proved: `parseFloat` accepts exactly the grammar with its values; by induction over the children |
| C129 | the same, then `process` | false for Gamma: the exponent 0 of an empty `GammaParams` turns colours white, or stops the node; partial: Log and ExposureContrast |
| C130 | `lookup1DHalfDomainInterpolatedR` and the half-domain branch of `lut1dProcessR` in `Model/Rounded.lean` | proved: the differences of neighbouring halves and of an input with one are exact, so the quotient and the weight need one rounding each (`Lemmas/RoundedHalf.lean`); a constant table of subnormal entries is not kept (`C130_subnormal_false`) |
| C131 | `unitPointR` and `samplePointR` in `Model/RoundedSampling.lean` | false of the upper end: witnesses on both sides of it; partial: reached after storing in float32 when the lower end is not larger in size; first sample, order, accuracy and the unit interval are proved |
| C132 | `Model/ArrayObject.lean` (calls on arrays with the global feature mask, groups), `Array.write`, `ProcessList.write` and `read` | false for nodes, which are written whatever the mask (then refused by strict reading, for every such list), and for encoded arrays, which are read whatever the mask (then not writable); partial: setting and writing encodings |
| C133 | `Model/RoundedList.lean` (`processListR`: the node loop over the rounded nodes; powers and logarithms of the C library are a parameter), `Spec/Chain.lean` (maps of RGB triples, `Gauge`, `Budget`) | each node is within its error (C122, C124, C125, C126, extended to values outside the table or bounds) of its map, and each map is Lipschitz; induction on the list; CDL nodes of style Fwd by C136; Gamma, Log and ExposureContrast nodes as one curve per channel (`Stage.tone`), for which `basicFwd` with exponents at least 1, the antilogarithms and `linear` with contrast at least 1 are worked out over the reals (`Props/ToneList.lean`).  Without rounding the list is the exact one, for all kinds of nodes. RGB pixels.  Ranges with fewer than four bounds or integer inputs are in C147, groups, references and `bypass` in C148 |
| C134 | writing and reading of lists (as C50), `processListR`, `Spec/StoredChain.lean` (`storeError`, `StoredGauge`, `StoredBudget`) | a table value comes back as a float32 number within `1/10^9 + abs v / 2^24`; maps with nearby tables are near each other; C133 for the list that is read; the bounds of Range nodes have at most twelve digits and come back as they were |
| C135 | `toClfMain`, the registry, the SPI readers, then as C134 | the reader's node is one of C134's; the tables are those of the parsed text (`spi1dParse`, `spi3dParse`) |
| C136 | `Model/RoundedPower.lean` (`cdlProcessR`; the library's power is a parameter), `Spec.PowerNear`, `Spec.Curve`, `Stage.grade` | errors of each step, the Lipschitz constant of the curve (`C136_real`: p for real powers p ≥ 1), the gain of the saturation; neutral: what the saturation step adds is at most 2^-46 and vanishes when stored as float32 unless the colour is below 2^-20; `C136_neutral_fails` is a witness |
| C137 | `Model/RoundedPower.lean` (`gammaProcessR`), `Spec/Library.lean` (`GoodLibrary`: library powers and logarithms good to 2^-50), `Spec.RelClose` | relative errors: scaling, power (a relative error ε of the base gives 4eε), rounded reciprocal (`within_exponent`), storing; chained with `RelClose.trans`. Exact real powers are a good library (`Spec.RealArith.good`) |
| C138 | `Model/RoundedPower.lean` (`logProcessR`, `floatMinR`), `Spec.LogOf`, `Spec.AntiLogOf`, `Spec.floor32` | a relative error of the argument is an absolute error of the logarithm (`logb_close`), an absolute error of the exponent is a relative error of the power (`within_exponent`); `log2_value` for the quotient of logarithms; `floatMinR_near` for the floor. The film curves logToLin and linToLog are the subject of C145 |
| C139 | `Model/Spi.lean` (`readSpi3d`), `Spec/LutRows.lean` | `C139_order`: the table is the colours in the order of the lines, for all indices; a complete ascending list of lattice points is the enumeration (`ascending_id`); refuted by an identity cube listed red fastest |
| C140 | `Model/Spi.lean`, `Model/Csp.lean` | simulation of the reading loop up to the length (`spi1dLoop_same`); loop invariants of the CSP table for few rows (`cspLoop_some`) and for any number (`cspLoop_line`); the row after the last of a cube lands on (0, 1, 0) |
| C141 | `Model/Spi.lean`, `Model/Csp.lean`, `Spec.BlankLine`, `Spec.Spaced` | induction over the lines |
| C142 | `Model/Read.lean` (`readFile`), `Model/XmlText.lean` | renaming the roots of all files commutes with reading, induction over the recursion limit; documents of foreign elements are empty lists |
| C143 | `Model/ArrayText.lean` (`Arr.read`), `Model/Array.lean`, `Model/Process.lean`, `Spec.MoreNumbers` in `Props/Incomplete.lean` | order of computations by success (`LeOk`), compatible with binds, loops and maps; corners of a longer table extend those of the shorter; a trilinear mix that is not empty used eight full corners; induction over nested nodes |
| C144 | `Model/Process.lean` (`ecProcess`), `Model/RoundedPower.lean` (`ecProcessR`); powers over the reals (`Spec.RealArith`) | with three channels the node is a channel loop (`ecProcessR_view`); algebra of real powers.  Pixels of more than three channels are left out: the node takes the others from the first pixel (C34).  Accuracy in IEEE arithmetic is part of C133 (`C133_exposure`) |
| C145 | `Model/RoundedPower.lean` (`logProcessR`, `logToLinR`, `linToLogR`, `logGainR`), `Spec.Film` (the curve by its five numbers) | interval arithmetic with a count of roundings (`Approx`, `Lemmas/Approx.lean`); one-sided bounds of exponents (`antilog_close`); the round trip compares exposures relatively (`film_between`). In the example, all ten bit codes from black on come back within a quarter of a code. Light so far below the shadow that the exposure is not positive is left out; there the code takes the floor (C33) |
| C146 | `Model/RoundedPower.lean` (`moncurveFwdR`, `moncurveRevR`, `gammaProcessR`), `Spec.moncurve` (`Spec/Curves.lean`), `Spec.SameSide`, `Spec.MonTrip` | the counted roundings of `Approx`; both pieces are close to the curve near the break point because they touch there (`mon_parts`), so a rounded comparison does no harm; the curve is nowhere flatter than its line (`moncurve_expands`), which bounds the way back. In the example, eight bit sRGB codes up to 9 and from 80 on come back within a tenth of a code. The codes in between do not come back at all (C31, disagreement on the break point of moncurveRev) |
| C147 | `rangeStepR`, `rangeProcessR` (`Model/Rounded.lean`), `Spec.spread`, `Spec.shift` | the counted roundings of `Approx` for slope and offset; clamping does not move two numbers apart; four bounds (`C147_full`), lower or upper bounds (`C147_lower`, `C147_upper`), no bounds (`C147_depths`).  This lifts the restriction of C133 to Ranges with four bounds and floating point inputs |
| C148 | `runNodesR`, `processListR` (`Model/RoundedList.lean`), `Carries` (the stages a list stands for) | induction on the structure of the list; a budget for the whole splits where a group or reference ends; the copy a reference makes is exact since the numbers are `float32` already; the adapter for a bypassed node is a Range without bounds (C147).  This lifts the restriction of C133 to lists without groups, references and `bypass` |
| C149 | `Model/RoundedImage.lean` (`filterImageR`: `filterImage` over the rounded Ranges and the rounded list) | a row goes through C148 with a change of depth before and after it (C147); the pool gives the rows in order (C65); copies are exact since the numbers are `float32`; storing an integer cuts off what is after the point (C88), storing a half rounds once.  Without rounding it is the exact model (`C149_exact`).  In the examples a ten bit image of any size with video levels comes out within 1.01 codes of the exact map |
| C150 | `Model/RoundedPower.lean` (`cdlRevR`, `cdlRevNoClampR`), `Spec.Undoable`, `Spec.reversed`, `Spec.reversedFree`, `Spec.Modulus` (how much a curve moves over a small distance; a root is not Lipschitz at 0), `Spec.Unclipped` | errors of each step: undoing the saturation, clamping, the root, taking off the offset, dividing by the slope.  `C150_roundtrip` puts C136 and `C150_rev` together; `C150_forward` and `C150_root` show that any library within a relative 2^-50 gives the curves meant, also when `1 / p` is rounded; `C150_real` is the round trip with real powers |
| C151 | `Model/RoundedList.lean`, `Model/RoundedImage.lean`, `Spec/Alpha.lean` (`Spec.Colours`, `Spec.KeepsAlpha`, `Spec.coloursOf`), `Spec.withoutAlpha` | each node is related to itself over three channels (`Agree`): it fails alike or gives the same first three of each pixel.  The relation is carried through groups, references and lists by induction (`nodes_agree`), through the depth Ranges, rows, the worker pool, the copy of the rows, reading and writing (`C151_image`).  `C151_same`, `C151_alpha`, `C151_exact`, `C151_accurate` follow.  `C151_colours_false`: a Matrix with four rows fails on three channels and lets alpha into red; `C151_alpha_false`: a Range changes alpha |
| C152 | `Model/RoundedWrite.lean` (sampling and writing with rounding), `Model/Scripts.lean`, `Spec/Bake.lean` (`Spec.Gentle`, `Spec.Slope`, `Spec.bakeError`, `Spec.Bakes`) | each sample is the ideal value at the rounded grid position within the budget of the list (`sample_text`), read back within the precision of the text; the table read back is evaluated within the bound of C129/C131 of the polygon through the samples, and the polygon is within half a step times the slope of the map (`polyline_samples`, `cube_samples`).  `C152_spi1d` and `C152_spi3d` go from script to script; `C152_slope` multiplies the slopes of the stages; `C152_texts` covers twelve digits; `C152_exact`: without rounding the writers are those of the exact model |
| C153 | `Model/RoundedList.lean`, `Spec/Chain.lean` (`Stage.map`, `MapBounds`), `Spec/IndexCurve.lean` (`indexCurve`, `SlopesWithin`, `HalfCurve`) | an index map in IEEE arithmetic is its polygon within `2^-22` of the table (`mapped_position`), so a mapped node is the plain node at positions off by that (`mapped_near`, `mapped_cube_near`, `mapped_tetra_near`); half-domain nodes from C130 and reverse CDLs from C150.  `C153_lut1d`, `C153_cube`, `C153_tetra`, `C153_half`, `C153_rev`, `C153_free` give for each the stage that the node implements and its gauge, so that C148, C149 and C152 hold for lists with such nodes; `C153_samples` gives the hypothesis on half-domain tables from the entries alone.  A colour beyond the stated range is limited to it in the stage; the budget excludes such colours |
| C154 | `Model/RoundedPower.lean` (`cdlFwdNoClampR`), `Spec/OpenGrade.lean` (`openGrade`, `OpenModulus`, `OpenPower`) | slope and offset as in C136, luma and saturation for numbers of any stated size (`lumaR_open`, `saturateR_open`), the curve through its modulus across zero, where rounding may change which branch is taken (`cdlFwdNoClamp_near`); `C154_node` for images, `C154_list` gives the stage that the node implements and its gauge, so that C148, C149 and C152 hold for lists with it, `C154_roundtrip` joins it to C150, `C154_powers` and `C154_roots` give the hypotheses for real powers |
| C155 | `Model/Rounded.lean` (`lookup1DLinearR`, `lookup3DTrilinearR`), `Props/RoundedOrder.lean` (`Rising`, `RisingList`) | positions of different `float32` numbers in a cell are well apart (`single_apart`, `posF_apart`), the error of an interpolation is small against that as soon as the result leaves the lower entry (`lerpF_tight`, `lerpF_order`), cells are joined through `rowF_mem` (`rowF_order`): `C155_lut1d_partial`; Matrices by monotone rounding and Ranges by C126, composed over lists (`C155_list`); `C155_wide_false` a constant table of doubles, `C155_cube_false` a rising cube of `float32` numbers |
| C156 | `Model/Process.lean` (`cdlFwd`, `cdlFwdNoClamp`, `cdlRev`, `cdlRevNoClamp`, `gammaStyle`, `logStyle`, `ecProcess`, `runNodes`) | `Spec.OrderKept`: an image function that applies one colour map, monotone in the order by channels; the colour maps of C28, C31 to C33 and C144 are monotone (`sat_mono`, `moncurve_monotone`), composed over lists by induction (`C156_list`); `C156_saturation_false`, `C156_reverse_false` for every saturation on the wrong side of 1, `C156_moncurveRev_false` for every exponent and offset except those with break point 1 |
| C157 | `Model/RoundedList.lean` (`processListR`, `runNodesR`, `Node.processR`), `Model/Rounded.lean`, `Model/RoundedPower.lean` | `Spec.GreyImage` speaks of positions in the image, `Spec.Colourless` of the parameters of nodes; an invariant of the pixel loops (`grey_loop`, `grey_chan`), for cubes the fact that weights 0 leave only the two corners on the diagonal (`tetra_grey`), and induction over trees (`grey_nodes`). No property of the rounding is used but `R 0 = 0`, so `C157_ieee` and `C157_exact` are instances of `C157_list`. `C157_matrix` and `C157_matrix_only` from C10; `C157_matrix_false` and `C157_trilinear_false` by evaluation |
| C158 | `Model/Lut3d.lean`, `Model/Lut1d.lean`, `Model/Matrix.lean`, `Model/Range.lean` | `Spec.Rises` speaks of the entries only and `Spec.OrderKept` of pixels. Interpolation along one axis is rising in the position and in the values (`lerpRow_mono`, `lerpRow_pointwise`), so three of them are (`triRow_rises`). The six formulas of the tetrahedral lookup are one function, rising along each axis within a cell and the same on the common face of two cells (`tetRow_mono`), and symmetric in the axes (`tetRow_rises`). The node theorems put these into C22, C14, C10 and C07; `C158_cube_only` evaluates at lattice points (C21), `C158_matrix_only` at unit vectors. In IEEE arithmetic cubes do not keep the order (`C155_cube_false`) |
| C159 | `Model/Lut3d.lean`, `Model/Lut1d.lean`, `Model/Matrix.lean`, `Model/Range.lean`, `Model/RoundedList.lean` | `Spec.Steady` speaks of pixels only and `Spec.Even` of neighbouring entries. Interpolation is as steep as its steepest step because adding and subtracting `J` times the index makes a table rise (`lerpRow_lipschitz`, `triRow_lipschitz`, `tetRow_lipschitz`); clamping brings positions no further apart (`unit_near`). `C159_list` by induction; `C159_ieee` from C148 and the slopes of C152. `C159_moncurveRev_false`: the values above the break point stay below a number less than that at it |
| C160 | `Model/Read.lean` | `Spec.RefersTo` lists the paths named by the references of a document, at any depth, after joining `basePath` and `path`; `Spec.RefersWithin` says that a file refers only to a set of paths. `readNode_loads`: reading asks for no other files (induction on the document); `C160_partial` by induction on the depth of nesting. `C160_false`: a doubling list read through a reference, before and after both files are moved |
| C161 | `Model/RoundedList.lean`, `Model/RoundedPower.lean`, `Model/Rounded.lean` | equality of the results of two lists, errors included. `unit_body` and `unit_stages`: a loop over channels that starts by normalising and ends by scaling is the loop on float depths between two scalings, because rounding twice is rounding once; `viewLoop_split` carries this over the pixels. `C161_unknown_false`, `C161_alpha_false`: witnesses evaluated in IEEE arithmetic |
| C162 | `Model/Verbose.lean`, `Model/Image.lean` | the model of the loop over nodes once more, with the list of printed lines (without the formatting of numbers, and without lines that come before an error). `C162_same` is a mutual induction over trees; `C162_trace` and `C162_group` compare the lines with `processList` and `Node.process` on the list of nodes cut off, both of which know nothing of lines; `C162_leaf`, `C162_group` and `C162_reference` say what a node prints itself. `C162_bypassed` compares the reports of bypassed nodes with a filter over the nodes and their neighbours, by induction with the node before. `C162_pixel_false` holds for every image |
| C163 | `Model/ReadInto.lean`, `Model/Read.lean` | `read` and `readFile` with the list as a state, which an error leaves as it is, compared with the model of reading into a new list, which has no state. `readChildrenInto_spec`: a step on a list with something before it is the step, with it before (`readListStep_behind`); induction over the children. `C163_runs` uses C37. `C163_reload_false`: a witness, evaluated |
| C164 | `Model/RoundedList.lean`, `Model/Rounded.lean`, `Model/RoundedPower.lean` | `Spec/Channels.lean` says what pixels and rearranged images are. `rearranges_view`, `rearranges_mapM`: an image is processed pixel by pixel; `rearrangesPx_chan`: a pixel channel by channel; `ecLoop_const`: an ExposureContrast gives all pixels the further channels of the first, which rearranging does not change; `rearranges_nodes`: induction over lists and nodes. `C164_returns`: the exchange undone; `C164_alone`: one colour copied to all three. `C164_row`: with the Ranges that `filterImageWithCLF.py` puts around the list. `C164_matrix` uses C10. `C164_maps_false`, `C164_matrix_false`: witnesses, evaluated |

## Trusted base

* The Lean 4.33 kernel and Mathlib. Theorems depend at most on the axioms
  `propext`, `Classical.choice`, `Quot.sound`; the build prints no others.
* The correspondence between Lean definitions and the Python source (by review;
  every definition cites its lines and states its simplifications).
* Python 2 / numpy semantics as described above; `ElementTree`, `minidom` and
  expat as far as `Model/XmlText.lean` models them; `gzip`,
  `multiprocessing.Pool`, OpenImageIO and PyOpenColorIO are not modelled beyond
  the assumptions listed.

Not modelled: the formatting of numbers in `verbose` output, parsing of command lines, timing.

## Disagreements between code and documented intent (found while modelling)

1. `filterImageWithCLF`, single-threaded: only row 5 is processed (line 588).
2. One-row images: `row % math.ceil((height-1)/100.0)` divides by zero.
3. `LutCTL.writeCTL1D` writes the red channel for every channel.
4. `Sampling.sample1D3D1D` decodes the output with the *input* shaper's inverse.
5. `LutCLF.writeCLF1D3D1D` writes the inverse of the input shaper as first stage.
6. `convertMatrixToProcessNode` tests `matrix[11 == 0.0]` (i.e. `matrix[0]`).
7. `generateLUT1DInverseHalfDomain` ignores `minInputValue`/`maxInputValue`.
8. `ExposureContrast.process` copies extra channels from the first pixel;
   styles `video` and `log` always raise.
9. `Array.lookup1DCubic` always raises `NameError`.
10. `Gamma` `moncurveRev` compares against the wrong pivot.
11. `ASCCDL` `RevNoClamp` clamps.
12. `bypass="False"` bypasses; `defaultRange="False"` sets a default range.
13. `Array.lookup3D` / `simple3DLUT` index non-cubic tables wrongly.
14. `IndexMap.write` truncates outputs to integers.
15. `Group.readChild` ignores strict mode; strict errors in gzipped files are
    replaced by an XML parse error.
16. Self-contained writing does not reach nested references or groups.
17. `LUT3D.setArray` appends to the caller's dimension list.
18. A finite lookup that hits an infinite table entry returns NaN.
19. `Array.lookup1D` treats every table that does not have three columns as a
    single column, so two-column tables are addressed wrongly.
20. A float32 table value can change by more than half of the ninth decimal when
    written as text and read back (two roundings); its text does not change again.
21. `float32ToHex` raises for finite values beyond float32, all other encodings
    turn them into infinities.
22. A self-contained file of a list holding an unresolved Reference cannot be
    written (`AttributeError`).
23. The attribute text "True" becomes the boolean on reading, so it is not the
    string that was stored; node comments, and the text of value elements of the
    list other than its descriptions, are lost on reading.
24. A node written with an empty parameter list or an empty index map cannot be
    read back.
25. `sample3D` and `sample1D3D1D` allocate the cube with the resolutions reversed, so
    every call with different first and last resolution raises `IndexError`.
26. The log2 shaper raises values below the smallest normal float32, so its inverse
    does not return them.
27. The text LUT formats hold six decimals, so a table read back differs by up to half of
    the sixth decimal.
28. `readCSP` uses the first dimension for all three sides, so cubes with unequal sides
    are read wrongly or not at all.
29. A CSP prelut of two entries is replaced by the normalising range: its outputs are
    ignored. Preluts of different lengths raise `IndexError`.
30. `writeSPI3D` ignores the input range: a cube sampled over [0, 2] is read back as one
    over [0, 1].
31. A CSP table written with two components is read back as zeros.
32. `writeCSP1D3D` needs an input shaper; without one the CSP writer raises `TypeError`.
33. `Registry.write` returns nothing, whether or not a format was found; `LutFormat.read`
    of the base class uses an undefined `self`; the CTL class has a `read` that calls a
    missing `readCTL` (the registry never calls it).
34. `convertMatrixToProcessNode` has its comparisons inside the subscripts
    (`matrix[11 == 0.0]`), so it tests that entry 0 is not zero instead of entries 11, 14
    and 15. When the test fails the 4x4 matrix is kept, raises `IndexError` on RGB pixels
    and loses its offset; when it passes the share of alpha in blue is dropped.
35. A matrix with an offset is written with dimension "3 4 3" but 16 values.
36. An inverse OCIO matrix is dropped silently, and the direction of a group is ignored.
37. A file transform of a kind no format reads makes the conversion raise `TypeError`
    (`extend(None)`).
38. With one process `filterImageWithCLF` filters row 5 only and writes zeros elsewhere;
    images of less than six rows raise `IndexError`.
39. Images of one row are never written: the progress message divides by
    `ceil((height-1)/100)`.
40. Samples of a width other than 10, 12 and 16 bits are shifted down on reading but not
    up on writing, and are labelled 16-bit.
41. An image with `oiio:BitsPerSample` metadata cannot be written in a float depth
    (`KeyError` in `bitDepthValue`).
42. An image that cannot be opened gives `ValueError` (seven values unpacked into six names).
43. Exceptions in a worker are swallowed; the run then ends without writing and without an
    error status.
44. Results are cut to integers, not rounded (`int(x)`): bytes converted to 10 or 12 bits
    and back lose 1 unless they are multiples of 85 or 17.
45. Integer output is not limited to its range: 510 is written as 254 in 8 bits, and
    infinities and NaN raise.
46. Tables are written with nine decimals whatever their size, so small entries lose all
    their digits: a matrix entry of 1e-10 is written as 0.
47. `convertCLFtoLUT.py --lutResolution3d` is read into a variable that is then overwritten:
    a cube has 33 entries per side, or the middle number of `--lutResolution1d3d1d`.
48. `convertCLFtoLUT.py --format` is passed to `convertCLFtoLUT` and not used there; the
    extension of the path decides.
49. On a machine with one CPU, or with `-m 1`, `filterImageWithCLF.py` uses one process
    and so filters row 5 only (38).
50. `filterImageWithCLF.py` says that an invalid output bit depth will be ignored, and
    returns without doing anything.
51. `convertLUTtoCLF.py` and `convertOCIOtoCLF.py` lose digits beyond the ninth decimal of
    tables and matrices (46), so the file can process colours differently from the LUT.
52. Before OpenImageIO 1.8, a half image with an odd number of values (width times height
    times channels) cannot be written: the buffer does not divide into floats.
53. `ExposureContrast.printInfoChild` prints the exposure under the name of the contrast.
54. `printInfo` fails for integer tables that show a NaN or an infinity, for tables whose
    dimensions do not say how long a row is, for unknown channel letters, and for index maps
    of fifteen inputs or more with another number of outputs.
55. `setIndexMaps` adds to the index maps that are there instead of replacing them: after a
    second call with one map, channel 0 still uses the first, and a third channel has none
    (`IndexError`).
56. `getIndexMapDimensions` calls a method that does not exist.
57. Whether a table is one of integers is decided when the table is set; changing the output
    depth later leaves the old answer, which shows in `printInfo` and in a table with a NaN
    or an infinity that cannot be written.
58. An SPI 3D file of another version is read as a cube without samples instead of being
    refused; every colour sent through it fails later.
59. A wrong version in an SPI 1D file ends the reading without a message.  What was read
    before it is used; without a `Components` line the reader then divides by zero.
60. A shaper in front of a CSP cube is resampled when it is read, at twice as many evenly
    spaced points, none of which is an inner knot.  A shaper that maps 1/2 to 1 maps it to
    0.8 after writing and reading.
61. A CTL program with two components declares two tables and uses neither: it returns
    every colour as it is.
62. The search path of an OCIO configuration may list several directories, divided by
    colons.  `convertOCIOtoCLF.py` joins the whole list to the directory of the configuration
    as if it were one directory, so no relative file is found.
63. The usage text of `filterImageWithCLF.py` gives 0 to 100 as qualities of compression.
    Quality 0 is not set; the quality of the source, or the default of the format, is used.
64. The cache of an index map is there to make evaluation faster.  From 65520 on, where the
    half-float rounding overflows, it gives infinity instead of the last output (`C114_false`).
65. `IndexMap.setValues` calls `_createCachedEval`, which does not exist (the method is
    `_createCachedProcess`); with the cache on it raises an `AttributeError`, after storing the
    values.  The cache is not emptied, so evaluation goes on with the old values (`C115_false`).
    `IndexMap.read` does not empty it either.
66. `writeFile` opens the file for writing and then writes a unicode text, which Python 2 encodes
    as ASCII.  One accent in a description raises a `UnicodeEncodeError` after the file has been
    emptied: the list is not written and the earlier file is lost (`C118_false`).
67. Line feeds and tabs in attributes come back as spaces, because `minidom` does not write them
    as character references; carriage returns in descriptions come back as line feeds
    (`C116_false`, `C117_false`).
68. The CLF namespace of a file is accepted and forgotten: what is read is the same with and
    without it (`C121_namespace`), so it is not there when the list is written again.
69. Code values are divided by full scale and stored as `float32` before they are multiplied with
    the last index again.  Where the position comes out just above the entry, decreasing
    tables give slightly less than the entry, and images drop the fraction: an inversion of
    four entries maps 170 to 84, not 85 (`C123_code_false`, `C123_image_false`); the same happens where an index map gives
    the index exactly, because it is divided by the last index and multiplied again (`C123_index_false`, `C123_indexImage_false`).
70. A Range works on the unit scale and stores it as `float32`, so codes whose image is a whole
    code can come out just below it, and images drop the fraction.  From 10-bit legal (64 to 940) to 8-bit legal
    (16 to 235), where every fourth code has a whole image, 128 becomes 31 and 132 becomes 32, not 32
    and 33 (`C126_codes_false`, `C126_image_false`); rounding to the nearest integer would give
    all of them (`C126_close`).
71. An absent `gamma` of a `GammaParams` element is read as 0, not 1: an element with an offset or a
    channel only turns every positive colour white, or in the style `basicRev` stops the node with a
    `ZeroDivisionError` (`C129_false`, `C129_false_rev`).  The node without parameters uses 1.
72. The last position of a sampled range is not its end in `float64`: for 0.2 to 0.9 it is the
    number before the end, for 0.3 to 0.9 the one after it, outside the range (`C131_last_false`).
73. Switching a vendor's features off does not stop its nodes from being written
    (`C132_nodes_false`) nor encoded arrays from being read, even strictly (`C132_read_false`).
    The first gives files that cannot be read strictly, the second lists that cannot be written.
    `Array.__init__` also takes any `floatEncoding`, which `setFloatEncoding` would refuse.
74. A neutral CDL changes dark floats (`clf/ASCCDL.py:180-183`).  The saturation step takes luma off and adds it again also for saturation 1, so that (2^-60, 1, 0) becomes (0, 1, 0) (`C136_neutral_fails`).  Integer pixels and floats that are 0 or at least 2^-20 are exact (`C136_neutral`).
75. The indices at the start of the rows of SPI 3D files are skipped (`lutFormats/LutSPI.py:256-264`; a comment there says so): an identity cube listed red fastest is read as one that swaps red and blue (`C139_false`).
76. Numbers of rows are not checked.  A cut-off SPI 1D file is read as a shorter table over the same range (`C140_spi1d`, `C140_spi1d_false`), rows missing in a CSP file are zeros, that is black (`C140_csp1d`, `C140_csp3d_partial`), and a surplus row of a CSP cube replaces the colour at (0, 1, 0) (`C140_csp3d_long`).
77. A blank line anywhere in an SPI 1D file is an IndexError (`C141_spi1d`).  In a CSP table it becomes an entry 0 0 0, and the rows after it move down (`C141_csp`, `C141_csp_false`).
78. The name of the root element is never looked at (`clf/ProcessList.py:187-234`): every XML document is a process list, without strict one of no nodes that leaves images as they are (`C142_root`, `C142_foreign`, `C142_false`).
79. `strict` is not passed on to referenced files (`clf/ExtensionReference.py:96`): a strict read accepts a file that refers to one which a strict read refuses (`C04_reference_false`).
80. The number of values of an Array is never compared with its dimensions (`clf/Array.py:211-247`, `C143_read`).  Mostly the lookup of a missing number is an error (`C143_partial`), but a trilinear cube that lacks two numbers gives grey for white (`C143_false`), because the one number left of the last colour is broadcast to three channels (`clf/LUT3D.py:177`).  A LUT1D of no entries uses the last number of its text (`C143_empty_false`).
81. An ExposureContrast node with pivot 0 gives NaN for every channel that has light (`clf/ExtensionExposureContrast.py:143`, `C144_zero_pivot`); nothing checks the pivot when it is set or read.
82. **A rising table does not always give rising values (C155).** `lookup1DLinear` (`clf/Array.py:486-507`) computes `(1 - t) * a + t * b` in doubles, which is not monotone in `t`. For tables of `float32` numbers the last rounding hides this. A table of doubles, from a file with `floatEncoding` `integer64bit` or `hex64bit` (`clf/Array.py:226-234`) or given through `setArray`, or an interpolation in a LUT3D, whose inner interpolations are doubles, can give a number just at the limit between two `float32` numbers, and a larger pixel value then comes out one step smaller (`C155_wide_false`, `C155_cube_false`).
83. **The reverse monitor curve falls (C156).** The style `moncurveRev` (`clf/ExtensionGamma.py:173-177`) works out the value of the forward curve at its break point, but then compares with the break point itself (disagreement 10). Up to there it uses the line, beyond it the power, and where it changes the line is higher: for the numbers of sRGB (2.4 and 0.055) it goes up to 0.508 at 0.0393 and continues at 0.219 (`C156_moncurveRev_false`). A gradient through this node has a visible edge where it turns dark again. C31 has the failed round trip.
84. A Matrix whose rows have the same sum should leave greys grey. `clf/Matrix.py:118-127` adds up each row in the `float32` output array, product by product, and rounds after each, so the result depends on the order of the entries of the row: `C157_matrix_false` has rows of the same `float32` numbers in different order, and white comes out with one channel a bit larger.
85. The path of a Reference is relative to the working directory of the process, not to the file that holds it (`clf/ExtensionReference.py:63-71, 93-99`), although the file's own path is known to `ProcessList.readFile`. Moving two files together, or calling from another folder, therefore makes the reference vanish, and `setPaths` then keeps `None` without complaint even in strict reading: `C160_false`. (If the working directory holds a file of that name, that one is used.)
86. The depths of a node are applied inside the loop over the first three channels (`clf/ASCCDL.py:175-224`, `clf/ExtensionGamma.py:145-179`, `clf/ExtensionLog.py:169-223`, `clf/LUT1D.py:170-204`), so a fourth channel stays on the scale of the input: after a CDL from 8 to 10 bits an opaque pixel has alpha 255 of 1023 (`C161_alpha_false`), whereas a Range does scale it. A style that is not known leaves the colours on the old scale as well (`C161_unknown_false`).
87. `filterRow_pixel` (`filterImageWithCLF.py:367-368`) prints a variable `j` that it does not have. With `verbose` the first pixel is a NameError, whatever the image (`C162_pixel_false`). No other function calls it.
88. `readFile` and `read` do not clear the list they are called on (`clf/ProcessList.py:187-258`; only the constructor starts with nothing). Reading a file again therefore applies it twice (`C163_reload_false`), and a failing read, a strict one say, leaves the nodes in front of the failing element in the list (`C163_failed`, `C163_file_failed`).
